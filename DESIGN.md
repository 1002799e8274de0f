# Formal model of SeismoStats in Lean 4 — design

## Trusted base

* Lean 4.33.0's kernel (plus Mathlib as a library of kernel-checked proofs).
* Axioms: only `propext`, `Classical.choice`, `Quot.sound`. No axiom of our own,
  no compiled evaluation in proofs.
* The reading of the Python source.  Nothing of /repo is executed; each model
  definition cites the file and lines it was read from.

## Modelling conventions

* **Numbers.** Floating point is modelled by exact arithmetic. Code that only
  compares, adds, multiplies, divides and floors is modelled over an arbitrary
  ordered field with floor `K` (or an arbitrary linear order); code that uses
  log/exp/sqrt/trigonometry over `ℝ`. Theorems C01-C79 say nothing about the
  last bits of a result. Where the code's outcome hangs on rounding errors
  (binning, comparison with the completeness magnitude, frequency magnitude
  distribution, test of the binning, b-values, a-values) there is a second model in double
  precision (`Model/Double*.lean`, C80 and later): `rnd` rounds a real number
  to 53 binary digits, to nearest, ties to even, and every operation of the
  code is rounded. Its assumptions: no overflow and no subnormal numbers; the
  inputs are the doubles nearest to decimal numbers (what Python makes of a
  literal or of a text in a file); `decimal.Decimal(str(delta))` has as many
  decimal places as the literal.
* **NaN/inf.** NaN entries of input arrays are `none` in `Option K`; every
  comparison with NaN is false. Results that may be NaN or infinite are values
  of the inductive type `Fl` with explicit numpy semantics for `x/0`, `log 0`,
  `log (negative)`.
* **Exceptions** are values: `Except PyErr α`. Mutable objects are structures
  and methods are functions `State → Args → State × Except PyErr α`; the state
  component is also returned when the method raises (attributes assigned
  before the raise stay assigned).
* **Warnings** emitted by Python's `warnings.warn` are modelled as a Boolean
  option parameter whenever they influence control flow; printing is not.
* **numpy/pandas primitives** (`argsort`, `histogram`, `average`, boolean
  masks, `searchsorted`, `unique`, `cumsum`) are modelled by their documented
  meaning on lists. `argsort` with ties: the model uses a stable sort (numpy's
  default is not stable; theorems about time order assume distinct times where
  it matters).
* **Randomness**: random draws are explicit arguments, theorems quantify over
  all of them.
* **External services** (HTTP server, projection library, shapely, scipy's
  optimiser, statsmodels) are parameters with stated assumptions.

## Not modelled

Float rounding outside `Model/Double*.lean`, printing/plotting back ends, HTTP transport, pandas internals
(block manager), XML tokenisation (the SAX event stream is the input of the
parser model), cartopy drawing, `docs.py`, optimiser internals, performance.

## Layout

* `lean/Verif/Model/*`  model definitions, each citing /repo.
* `lean/Verif/Spec/*`   small specifications that do not mention the model.
* `lean/Verif/Proofs/*` helper lemmas.
* `lean/Verif/Props/*`  the property theorems, with non-vacuity examples.

## Plan per property

* **C01** Batched download returns every event exactly once, in order — server = list of events; loops with fuel-free well-founded recursion; invariant proof of doubling + bisection; batches concatenated = list.
* **C02** Batch probing terminates, with logarithmically many probes — probe counter added to the loops; for batch_size 0 the loop relation has no terminating run.
* **C03** Request parameters are exactly the ones asked for — params as association list; exact characterisation of the finite map.
* **C04** Options behave as a store with a fixed key set — state machine on finite map; refinement to last-write.
* **C05** Binning rounds to the nearest multiple, halves up — floor arithmetic.
* **C06** Binning is idempotent, order preserving and translation equivariant — floor arithmetic.
* **C07** normal_round to n decimals — floor arithmetic.
* **C08** binning_test accepts exactly arrays on a common grid — branch-by-branch model on Option lists, characterisation theorem.
* **C09** get_fmd partitions the magnitudes — histogram as half-open counting; induction over lists.
* **C10** get_cum_fmd counts events at or above each bin — suffix sums; induction.
* **C11** b-value estimators use exactly the events at or above mc — object model of BValueEstimator.calculate.
* **C12** A re-used estimator does not remember — object model, induction over call lists; negation witness for the failure case.
* **C13** ClassicBValueEstimator is the maximum likelihood estimate — log-likelihood defined in Spec; log inequalities / strict concavity.
* **C14** Classic and Utsu estimates are translation invariant and scale correctly — algebra on averages.
* **C15** Weights act as multiplicities — list induction.
* **C16** Classic and Utsu estimates do not depend on event order — List.Perm invariance.
* **C17** The warnings option never changes a b-value — Bool parameter invariance.
* **C18** Utsu never exceeds the classic estimate — log(1+x) >= 2x/(2+x).
* **C19** beta and b conversions agree everywhere — algebra.
* **C20** Shi and Bolt standard deviation — sums of squares.
* **C21** Bootstrap standard deviation ignores only non-finite estimates — filter + sum of squares.
* **C22** b-positive uses exactly the positive differences — list model of diff/mask.
* **C23** b-positive depends on time order only — uniqueness of sorted permutation.
* **C24** find_next_larger finds the next larger event — loop model, induction.
* **C25** b-more-positive pairs each event with its next larger one — composition of 24.
* **C26** make_more_incomplete keeps exactly unmasked events — loop model with List.
* **C27** estimate_b returns what was asked — return value type with all shapes; negation witness for return_n only.
* **C28** Classic a-value counts events above mc — list length/log.
* **C29** a-value reference and scaling follow Gutenberg-Richter — algebra + object state.
* **C30** a-positive is a rate estimate over positive differences — list model.
* **C31** a-more-positive is a rate estimate over next larger pairs — list model.
* **C32** Kijko-Smit combines sub-catalogues as stated — list model.
* **C33** Weichert uses complete years only — list model; optimiser is a parameter.
* **C34** Discrete exponential distribution function — real analysis.
* **C35** KS test result is a probability and does not depend on the warnings option — random draws as parameter.
* **C36** estimate_mc_ks returns the smallest passing mc — sorted list scan.
* **C37** estimate_mc_maxc returns the fullest bin plus the correction — argmax on fmd.
* **C38** estimate_mc_b_stability returns a stable mc — scan model.
* **C39** Moran's I is affine invariant and accepts any triangle — finite sums over Fin n.
* **C40** transform_n rescales deviations — algebra with sqrt.
* **C41** cut_constant_idx cuts without loss — list model.
* **C42** b_significant_1D windows are contiguous, full and aligned with mc — list model on top of 41, 43.
* **C43** values_from_partitioning evaluates part by part — list model.
* **C44** Gardner-Knopoff assigns every event to exactly one cluster with one mainshock — loop invariant over sorted events.
* **C45** Declustering windows never shrink as magnitude grows — real inequalities; negations with witnesses.
* **C46** Epicentral distance is a symmetric bounded distance — trigonometry.
* **C47** QuakeML event parsing treats events independently — state machine over SAX events.
* **C48** Preferred origin and magnitude are selected — list model.
* **C49** Catalog column filters remove exactly the announced columns — suffix predicates on strings.
* **C50** Catalog.bin_magnitudes — record model.
* **C51** Catalog.estimate_b / estimate_a resolve arguments by precedence — record model.
* **C52** QuakeML output keeps all complete events and all magnitudes — record model.
* **C53** OpenQuake conversion round trip — integer arithmetic on microseconds.
* **C54** Operations keep the class and metadata — record model.
* **C55** Rate grid cells are identified by their bounds — table model.
* **C56** Rate grid statistics give one row per cell — table model.
* **C57** Required columns are enforced — list model.
* **C58** Polygon filter keeps exactly the events inside — list model, polygon membership is a parameter.
* **C59** Simulated magnitudes stay in range — real analysis.
* **C60** Dithered magnitudes stay in their bin — real analysis.
* **C61** Coordinate transformation round trip — projection is a parameter with inverse law.
* **C62** apply_edwards converts local magnitudes only — polynomial algebra.
* **C63** gutenberg_richter curve — rpow algebra.
* **C64** Dot sizes are a bounded monotone function of magnitude — real algebra.
* **C65** Cumulative counts in time — list model.
* **C66** Plot helpers do not modify the caller's data — aliasing model of the caller's list.
* **C67** Time strings are parsed to the instant they denote — string model.
* **C68** Catalog.strip and string clean-up — string model.
* **C69** Column lookup prefers exact names — string model.
* **C70** A re-used a-value estimator does not remember — object state as a structure; the result is a function of the arguments for every prior state.
* **C71** Drawn frequency magnitude distributions — the drawn points as data.
* **C72** Map extent and dots — exact arithmetic on bounds, sizes of C64.
* **C73** b-value against completeness magnitude — list model on top of the estimators.
* **C74** Running b-values — list model on top of b_significant.
* **C75** Significance plot — list model, normal distribution is a parameter.
* **C76** Lilliefors p-value — statsmodels' test is a parameter with its documented invariances; random draws as parameter.
* **C77** Brightness of a colour — exact arithmetic, hls conversion of the standard library.
* **C78** Bootstrap uncertainty of b-more-positive — resamples as parameter.
* **C79** get_events from request to catalogue — composition of client, parser and catalogue models; service and losses as parameters.
* **C80** Binning of decimal numbers in floating point — real numbers with a rounding function; error bounds.
* **C81** Rounding errors do not move events across the completeness magnitude — error bounds smaller than half a bin.
* **C82** Frequency magnitude distribution in floating point — np.arange and np.histogram with rounded operations; each edge is within a small fraction of a bin of its decimal value.
* **C83** Candidate completeness magnitudes in floating point — the same for the candidate and stability windows; witnesses for the defects with explicit doubles.
* **C84** The binning test accepts binned magnitudes in floating point — error bounds by binade against the tolerance; a witness above 8.
* **C85** Assigned attributes of an estimator do not change its estimates — reachability extended by assignments; induction over the history.
* **C86** QuakeML text and its reading — lexer for the rendered XML, both readers, every division into buffers; induction over the characters.
* **C87** QuakeML text cut at any character — the lexer state after every prefix of the text.
* **C88** Catalog.from_quakeml and back — composition of writer, lexer, selection and constructor models.
* **C89** Catalog.estimate_b and estimate_a with the real estimators — the catalogue methods applied to the models of the estimator classes.
* **C90** Plot methods of Catalog — the catalogue methods applied to the models of the plot functions.
* **C91** The b-value in double precision — every operation rounded, `np.sum` any tree of additions, `np.log` any function with a relative error; closeness up to a factor `exp θ` through sums, products, quotients and the logarithm.
* **C92** The b-positive estimators in double precision — differences of doubles on the grid, the comparison with the cut-off and the search for the next larger event shown to decide as in exact arithmetic, then the error bound of C91.
* **C93** Classes of rate grids and strip — objects with class, content, attributes and the columns to keep; the constructor for results, `__finalize__` and `strip` as transitions; induction over the list of operations.
* **C94** The KS test in double precision — histogram, cumulated fractions, exponential and maximum with every operation rounded; bins and counts shown to be exact, the exponent by relative errors, the difference of exponentials by `x exp(-x/2) ≤ 1`; maxima of close lists are close.
* **C95** Law of simulated magnitudes — the generator is a random variable on a probability space (`Spec.RandomDraws`, Mathlib measure theory); distribution functions by the quantile identity of C59 and monotonicity, independence by composition, bins by a bin-edge equivalence.
* **C96** Strong consistency — Mathlib's strong law of large numbers applied to the simulated magnitudes (and, for b-positive, to the even and the odd differences separately); mean excess of the exponential law and of its bins by layer-cake formulas and Fubini; then continuity of the estimate in the mean. The simulation and the estimator classes are composed as they are in the code.
* **C97** Coverage of the reported standard deviation — closed forms of the estimate and of `std` in the draws; the event that the interval covers b is an inequality between the centred sum of the draws and sample moments; Mathlib's central limit theorem, Slutsky and portmanteau (no atoms at the ends) give the limit of its probability; strong law for `sqrt(n) * std`.
* **C98** Maximum curvature on simulated magnitudes — tail frequencies of the bins converge by the strong law; a deterministic lemma turns converging tail frequencies with a unique largest bin into an eventually unique fullest bin (finitely many bins by limits, the rest by one tail); `C37` says that the method returns the fullest bin.
* **C99** Coverage of the b-positive standard deviation — a central limit theorem for functions of consecutive draws is proved by dividing by the product of conditional characteristic functions; memorylessness of the exponential law gives the conditional law of a growing difference, the strong law for pairs the number of differences, the mean and the variance; Slutsky.
* **C100** Moments of sums over neighbour pairs under uniform random permutations (finite averages over the symmetric group), then exchangeability of the windows: the law of the draws of a window does not depend on the window.
* **C101** Exchangeability of the bins hit by the n + 1 samples, and the combinatorial fact that at most k + 1 of n + 1 values have at most k others that are not smaller; samples outside of all bins (no distance) have probability at most 1/(1000 m n).
* **C102** Closed form of the dithered values bin by bin; strong law for the number of magnitudes in each level and for the uniform draws of each bin; only finitely many bins reach below x; the sum of the level probabilities times the truncated laws telescopes to the exponential law.
* **C103** Martingale argument: the sum over all pairs of the centred excess has orthogonal increments, each of second moment at most C (1+1/2+...+1/n)^2, the expected number of magnitudes without a later larger one is at most C (1+1/2+...+1/n); convergence along fourth powers, then monotonicity. The pairs of the model are the first-larger pairs (C24/C25).
* **C104** Model with the request number as time; fuel monotonicity; invariants of the doubling and bisection loops with a list that depends on time; closed forms for the schedules that lose or duplicate events.
* **C105** The generator and the waiting times are random variables (Spec.RandomTimes). A strong law for sums of waiting times with random weights independent of them (second moments along fourth powers) gives the observed time, the strong law for growing pairs of C96 the count; composed with the formula of C30 for the first n events.
* **C106** The scaled waiting time of an event is a sum over the intervals during which it has not been exceeded; summed over events the interval j has weight the compensator of the number of events first exceeded by event j (Proofs/RenewalLaw: martingale with second moments of order n log^2 n), so the weights have mean one by C103's law; then the weighted strong law of C105.
* **C107** The scaled waiting times with another b-value differ from those of C106 by at most a multiple of the difference times the waiting times weighted with the power 3/4; the mean of the latter stays bounded by the maximal ergodic inequality (proved here) for the stationary sequence of magnitudes and waiting times. The b-values of C96 and C103 converge. Props/AValueWorkflow.lean.
* **C108** Model/CatalogMc.lean puts the functions of Model/EstimateMc.lean in the methods of Model/Catalog.lean; the properties of C36-C38 carry over, permutations by the permutation invariance of each step. Props/CatalogMc.lean, Props/CatalogWorkflow.lean.
* **C109** Strong laws for the number and the excess of the events at or above mc' (Proofs/Law.lean); their ratio is the mean excess, which is that of the whole law because the exponential law has no memory. Proofs/Above.lean, Props/AboveLaw.lean.
* **C110** C98 makes the stored mc constant from some n on, C109 gives the b-values above it, C29 the a-value from the number of events, whose share converges. Props/WorkflowLaw.lean.
* **C111** Proofs/Adapted: conditional expectations of functions of something known and an independent draw; a law of large numbers with a random number of terms (an L2-bounded martingale of the terms divided by the number of terms so far, martingale convergence, Kronecker's lemma) and Levy's conditional Borel-Cantelli lemma from Mathlib. Proofs/Detected: the pairs of consecutive recorded events, the estimate as a quotient of sums over them, and the divergence of the probabilities of a new maximum, from which infinitely many differences are used. Props/DetectedLaw and Props/Coda: the theorems and the case of hidden events.
* **C112** Proofs/NextDetected: means of martingale differences whose second moments grow slowly converge to zero (L2-bounded martingale, Kronecker), applied to the excesses of the pairs (recorded event, first later event that reaches its threshold), whose conditional means vanish by the memoryless property. Proofs/NextRecorded: the estimate from the recorded list as a quotient of sums over these pairs (the pairs of the recorded list are pairs of the full list because the next larger event is recorded), and the share of recorded events without a partner vanishes. Props/DetectedMore: the theorems.
* **C113** deterministic: if the fractions are close to F and those of the simulated samples close to their law, the KS distances separate; Hoeffding's inequality and Borel-Cantelli for the simulated samples, union bound; with C101 for estimate_mc_ks
* **C114** strong law for the uniform draws, integral of the inverse distribution function; convexity of exp for monotonicity
* **C115** C32 writes the estimate as the number of complete events over the sum of their excesses; the excess above the completeness magnitude of the period has the same law in every period (memoryless), so the centred sum over complete events is a martingale; convergence by the martingale convergence theorem and Kronecker's lemma (Proofs/Adapted, Proofs/Periods).
* **C116** Model/DoubleAValue.lean repeats the calculation with a rounding after every operation. The comparisons have the same outcome as in exact arithmetic (C81), so the same waiting times are used; the error is followed through the sum from left to right, the quotient, the logarithm and the two corrections.
* **C117** Martingale law of large numbers with predictable weights (bounded second moments and Kronecker's lemma), the outcome of the model for weighted samples, and a central limit theorem for weighted sums by characteristic functions, combined by Slutsky's lemma.
* **C118** Two martingales: the number of recorded events with a next larger one less its compensator, and the waiting times less their mean, weighted by the compensator; both are small relative to the number of events. The record is a subsequence closed under next larger events, so that its waiting times are those of all events.
* **C119** For magnitudes on a grid the moments of Weichert are exponentially tilted sums over the bins with a complete event. The mean of the tilted weights is strictly decreasing in beta; the observed mean converges (martingale law of large numbers, given the years), and so do the solutions. Default last_year: the weights lose a constant, which raises the tilted mean as exposure grows with magnitude.
* **C120** The windows are functions of consecutive independent draws, so the products of neighbouring windows of all offsets form a stationary sequence with finite range. Big blocks with gaps are independent: Lindeberg-Levy for them, the characteristic function of the rest is bounded by its second moment. Cauchy-Schwarz over the offsets, within which products are uncorrelated, bounds the variance by that of independent products. The rest (means, denominators, centring) vanishes in probability; portmanteau gives the level.
* **C121** Before and after the change the windows of an offset are b1 and b2 times the windows for the b-value one; the window across the change is bounded. Strong laws for the windows, their squares and the products of neighbours (even and odd places apart) give the limits of numerator and denominator; the moments of C122 make them explicit.
* **C122** The estimate is b n over a sum of n exponential draws. The reciprocal of the sum and its square are integrals of the exponential of minus t times the sum; exchange the integrals (Tonelli), use independence for the Laplace transform (1 + t)^-n and integrate.
* **C123** Model numpy.arange, pandas.cut with its label rounding and the comparisons in double precision (Model/DoubleCompleteness). Error bounds of arange put every edge within 3e-6 of a step of its exact value, so that comparisons with grid values agree and rounding to three digits restores the nearest double; grouping commutes with a strictly increasing relabelling of the edges. The defect is computed with exact mantissas.
* **C124** Model both functions with optional magnitudes (Model/CompletenessMissing): comparisons with NaN are false, searchsorted sorts NaN last, pd.cut gives NaN, which has no left edge. Show by induction over the events that the selections are those of the events with magnitudes.
* **C125** Model numpy's conversion of days to years (400-year cycles). The specification is any function that gives 1970 the day 0 and every next year 365 or 366 days more; it has a closed form, which is linear on each part of the cycle, and omega does the rest.
* **C126** Model np.min/np.max of an array with NaN and the comparisons with NaN; reduce the loop turn by turn to that of C36.
* **C127** Model the sort with NaT last and the comparisons with NaT. An event without a time behaves like one with a time after all others and no coordinates, which reduces it to C44; the rule of C44 determines the flags of the remaining events.
* **C128** Model Python's min and max as folds with a comparison that is false for NaN and np.min with and without skipping of NaN. A fold from a known value is the minimum of the known values, one from NaN stays NaN.
* **C129** Model argsort with NaT last. The comparison agrees with that of numbers when the missing times are replaced by a number above all known times, so the sorting permutations are equal; the rest of the calls depends on the times only through this permutation (b-values) or contains the last time, which is NaT (a-values).
* **C130** Python's `min` as a fold with the comparison that is false for NaN; the selection commutes with dropping the events without magnitude, by induction on the events.
* **C131** NaN stays NaN in the binning and makes minimum and maximum NaN; np.unique puts one NaN behind the numbers; the reverse cumulative sum of a list with one more last entry adds that entry to all others, by induction.
* **C132** The mask drops missing magnitudes; stable sorting by x_variable commutes with dropping events, by induction.

<!-- generated below by tools/design.py -->

## Model modules and what they cover

* `AValue.lean`: Model of seismostats/analysis/avalue: base.py, classic.py, positive.py, more_positive.py, __init__.py.
* `BSignificant.lean`: Model of seismostats/analysis/b_significant.py. A matrix is a pair of dimensions and an entry function. The standard normal distribution function (scipy.stats.norm) is an argument. Keyword arguments passed through to the estimators are `dmc`, `m_ref`, `b_value` and `weights` (the same for every part).
* `BValue.lean`: Model of seismostats/analysis/bvalue: base.py, classic.py, utsu.py, positive.py, more_positive.py, utils.py, __init__.py.
* `Base.lean`: Shared vocabulary of the model: Python exceptions as values, numpy's extended floating point results, Python dictionaries.
* `Binning.lean`: Model of seismostats/utils/binning.py, in exact arithmetic over an ordered field with floor.
* `CalendarYear.lean`: The conversion of times to calendar years in seismostats/analysis/bvalue/kijko_smit.py:91 and weichert.py:90, `np.array(times).astype("datetime64[Y]").astype(int) + 1970`, and the two estimators called with times. Times are nanoseconds since 1970-01-01T00:00 (int64 of numpy's datetime64[ns]; overflow of int64 is not modelled), not NaT.
* `Catalog.lean`: Model of seismostats/catalogs/catalog.py (construction, column operations, estimation methods) and of `require_cols` in seismostats/utils/__init__.py. A data frame is a list of column names and a list of rows; a row is a function of the column name, looked at only at columns of the frame (simplification). The index is not modelled.
* `CatalogEstimates.lean`: Model of `Catalog.estimate_b` and `Catalog.estimate_a` (seismostats/catalogs/catalog.py) with the estimator classes of seismostats/analysis/bvalue and avalue in place of the abstract methods of Model/Catalog.lean: what the methods do with the columns of the catalogue. Attributes and results are floats that can be NaN.
* `CatalogMc.lean`: Model of `Catalog.estimate_mc_maxc`, `estimate_mc_b_stability` and `estimate_mc_ks` (seismostats/catalogs/catalog.py) with the functions of seismostats/analysis/estimate_mc.py in place of the abstract functions of Model/Catalog.lean: what the methods do with the rows of the catalogue. The functions get the column as a pandas Series. `verbose` and further keyword arguments of the estimators are not modelled.
* `CatalogPlots.lean`: Model of the plot methods of `Catalog` (seismostats/catalogs/catalog.py:1073-1407): which columns and attributes are handed to the plot functions of Model/PlotBasics.lean, PlotStatistical.lean and PlotSeismicity.lean. The catalogue is returned as it is afterwards.
* `Client.lean`: Model of seismostats/catalogs/client.py (FDSNWSEventClient).
* `ClientLive.lean`: Model of the batched download of seismostats/catalogs/client.py (FDSNWSEventClient) with a service that changes between requests and does not always answer.
* `Completeness.lean`: Model of the estimators with varying completeness: seismostats/analysis/bvalue/kijko_smit.py and weichert.py. The times enter as calendar years (kijko_smit.py:91, weichert.py:90; for the conversion of datetimes see Model/CalendarYear); magnitudes and years are numbers (for NaN see Model/CompletenessMissing). The completeness table is a list of rows (magnitude, year).
* `CompletenessMissing.lean`: The estimators with varying completeness (seismostats/analysis/bvalue/kijko_smit.py and weichert.py, see Model/Completeness.lean) with missing magnitudes: a magnitude is `none` for NaN. Years are numbers (a missing time would fail in the conversion to years).
* `Config.lean`: Model of seismostats/utils/_config.py.
* `Coordinates.lean`: Model of seismostats/utils/coordinates.py in exact arithmetic. The projections of pyproj are parameters: a planar transformation and a spatial one for each pair of coordinate systems.
* `CumCountMissing.lean`: `plot_cum_count` (seismostats/plots/basics.py:205-293, see Model/PlotBasics.lean) with missing magnitudes (`none` for NaN). Times are numbers. The method `Catalog.plot_cum_count` (seismostats/catalogs/catalog.py:1151) hands its columns over, which `np.asarray` turns into arrays.
* `DeclMissing.lean`: seismostats/analysis/declustering/dec_gardner_knopoff.py (see Model/Declustering.lean) for catalogues in which times are missing: a time is `none` for NaT. A difference with NaT is NaT, and comparisons with NaT are false.
* `Declustering.lean`: Model of seismostats/analysis/declustering/{utils, distance_time_windows, dec_gardner_knopoff}.py. Times are seconds, windows days. Missing numbers (NaN, NaT) are `none`; comparisons with them are false. Not modelled: overflow of `pd.Timedelta`, its rounding to nanoseconds. For missing event times see Model/DeclMissing.lean.
* `Double.lean`: Double precision numbers: rounding of real numbers to 53 significant binary digits, to nearest, ties to even (IEEE 754, the arithmetic of Python floats and of numpy arrays of dtype float64). Exponents are not bounded: overflow, subnormal numbers, infinities, NaN and the sign of zero are not modelled.
* `DoubleAValue.lean`: Model of the three a-value estimators (seismostats/analysis/avalue) in double precision: every operation is rounded (see Model/Double.lean). `np.log10` and `10**x` are parameters. Magnitudes may be NaN; `b_value`, `m_ref`, `scaling_factor` and the times are finite numbers. For times of type datetime64 the differences are integers, which are rounded when they are divided: the same as rounding the differences. (Python's own datetime divides with one rounding less.)
* `DoubleBValue.lean`: Model of the classic and the Utsu b-value estimator (seismostats/analysis/bvalue) in double precision: every operation is rounded. numpy's `sum` and `log` are parameters. Bin size `delta_m > 0` in `calculate`.
* `DoubleBinning.lean`: Model of seismostats/utils/binning.py and of the comparisons with the completeness magnitude in double precision (see Model/Double.lean): every operation of the code is rounded. Model/Binning.lean is the model in exact arithmetic.
* `DoubleCompleteness.lean`: Model of the selection and binning of complete events in double precision: seismostats/analysis/bvalue/kijko_smit.py:101-112 and seismostats/analysis/bvalue/weichert.py:99-149, with `pd.cut` and its labels as in pandas (core/reshape/tile.py). Magnitudes without NaN; the years are numbers that doubles represent exactly (they are only compared and carried along).
* `DoubleFmd.lean`: Model of `np.arange`, `get_fmd`, `get_cum_fmd` (seismostats/utils/binning.py), `estimate_mc_maxc` and of the lists of candidates of `estimate_mc_ks` and `estimate_mc_b_stability` (seismostats/analysis/estimate_mc.py) in double precision. Without weights; magnitudes without NaN.
* `DoubleKs.lean`: Model of `cdf_discrete_exp` and `ks_test_gr` (seismostats/analysis/estimate_mc.py) in double precision: every operation is rounded. Without weights; magnitudes without NaN. `np.exp` and `np.log10` are parameters, `np.log` as in Model/DoubleBValue.lean.
* `DoublePositive.lean`: Model of the b-positive and the b-more-positive estimator (seismostats/analysis/bvalue/positive.py, more_positive.py) in double precision, for a bin size `delta_m > 0`.
* `DoubleTest.lean`: Model of `binning_test` (seismostats/utils/binning.py:88-181) in double precision, for a given bin size (`delta_x > 0`).
* `Download.lean`: Model of the whole of `FDSNWSEventClient.get_events` (seismostats/catalogs/client.py:24-164): request parameters, requests (one or in batches), parsing of the responses, catalogue. The service and the network are parameters.
* `Edwards.lean`: Model of seismostats/analysis/magnitudes.py in exact arithmetic.
* `EstimateMc.lean`: Model of seismostats/analysis/estimate_mc.py. Random numbers: the simulated samples (simulate_magnitudes_binned, modelled in Model/Simulate) are an argument. `verbose` output is not modelled. Magnitudes are numbers (for arrays with NaN see Model/McMissing.lean), except in `mcMaxc`, which drops NaN itself. (A pandas Series with NaN is dealt with in Model/CatalogMc.)
* `EstimatorAttrs.lean`: Model of the public attributes of the estimator objects as a user sees them between calls: assignments to b- and a-value estimators (seismostats/analysis/bvalue/base.py:246-301, avalue/base.py:186-268) and what is read afterwards.
* `Filtering.lean`: Model of seismostats/utils/filtering.py. Frames as in Model/Catalog: column names and rows; index labels are kept by selection and not modelled.
* `FmdMissing.lean`: `get_fmd` and `get_cum_fmd` (seismostats/utils/binning.py:184-321, see Model/Binning.lean) with missing magnitudes (`none` for NaN).
* `FromDict.lean`: Model of Catalog.from_dict as a method that returns an object or raises (seismostats/catalogs/catalog.py:255-302).
* `FromQuakeml.lean`: Model of Catalog.from_quakeml (seismostats/catalogs/catalog.py:205-253).
* `Lilliefors.lean`: Model of seismostats/analysis/lilliefors.py and of the method `p_lilliefors` (analysis/bvalue/base.py:189-229), in exact arithmetic. The test itself is a function of statsmodels (`lilliefors(x, dist='exp', pvalmethod='table')`): a parameter that gives the p-value or raises.
* `MapMissing.lean`: seismostats/plots/seismicity.py:21-206 `plot_in_space` (see Model/PlotSeismicity.lean) with missing coordinates and magnitudes: `none` for NaN. Without country.
* `McMissing.lean`: `estimate_mc_ks` and `estimate_mc_b_stability` (seismostats/analysis/estimate_mc.py, see Model/EstimateMc.lean) for numpy arrays with missing magnitudes (`none` for NaN). For a pandas Series, as `Catalog` hands it over, see Model/CatalogMc.lean.
* `Numpy.lean`: numpy primitives used by the estimators, over the reals, with explicit NaN and infinity results.
* `OpenQuake.lean`: Model of Catalog.to_openquake and Catalog.from_openquake (seismostats/catalogs/catalog.py:46-47, 304-434). An openquake catalogue is its dictionary of columns (`Catalogue.make_from_dict` keeps the dictionary as it is). A time is an integer number of nanoseconds. Floating point operations on seconds are rounded by a parameter `fl`. The calendar and the range of times that pandas can store in nanoseconds are parameters. Simplification: in `from_openquake`, the columns for year, month, day, hour and minute have to hold integers (otherwise TypeError).
* `Parser.lean`: Model of seismostats/io/parser.py. A document is the stream of events delivered by xml.sax. Strings under construction are lists of characters. `float` and `datetime.strptime` are parameters. The order of iteration over a Python `set` is a parameter.
* `PlotBasics.lean`: Model of seismostats/plots/basics.py in exact arithmetic. What is modelled is the data handed to matplotlib (points and lines), not the picture. Times are real numbers.
* `PlotSeismicity.lean`: Model of seismostats/plots/seismicity.py in exact arithmetic: extent of the map and dots, not the picture. Coordinates and magnitudes are numbers (missing ones: Model/MapMissing.lean). Tiles, projections, grid lines, colours and the legend are not modelled.
* `PlotStatistical.lean`: Model of seismostats/plots/statistical.py in exact arithmetic: the numbers handed to matplotlib, not the picture. Additional keyword arguments of the estimator: `dmc` only. The quantile function of the normal distribution is a parameter.
* `Quakeml.lean`: Model of Catalog.to_quakeml (seismostats/catalogs/catalog.py:1410-1516, 1587-1602) with the template catalog_templates/quakeml.j2. The result is the tree of the rendered document (the type of trees of Spec/Parser.lean), not its text. Simplifications: white space between elements and the namespace are left out, and values are assumed to contain no markup characters (the template is not escaped). A cell holds the text that `str` gives of its value. Random identifiers, `strftime` and the `int` filter are parameters.
* `QuakemlText.lean`: Model of the text that Catalog.to_quakeml returns (seismostats/catalogs/catalog.py:1457-1516, catalog_templates/quakeml.j2): the tree of Model/Quakeml.lean with the white space of the template, printed without escaping (`select_autoescape` does not apply to files that end in `.j2`).
* `RateGrid.lean`: Model of seismostats/catalogs/rategrid.py. Index labels (times in nanoseconds, cell ids) are integers or missing, written `⊤`; bounds are numbers or missing. Level names that are given are distinct, and the columns of bounds hold numbers or missing values (simplifications).
* `RateGridClass.lean`: Model of the classes of seismostats/catalogs/rategrid.py: `GRRateGrid` and `ForecastGRRateGrid` objects, their constructor for results of frame operations, `__finalize__` and `strip`.
* `Simulate.lean`: Model of seismostats/utils/simulate_distributions.py, in exact arithmetic. The random generator is a parameter: for each call the list of uniform and the list of standard exponential numbers it would draw. `beta` may differ from magnitude to magnitude.
* `TimeString.lean`: Model of the parsing of times: utils/__init__.py:111-150 and the time column of the constructor, catalogs/catalog.py:186-192. Strings are lists of characters. `datetime.strptime` and `pd.to_datetime(..., format='ISO8601')` are parameters. A time is an integer number of nanoseconds.
* `TimesMissing.lean`: The estimators that sort by time (seismostats/analysis/bvalue/positive.py, bvalue/more_positive.py, see Model/BValue.lean; avalue/positive.py, avalue/more_positive.py, see Model/AValue.lean) with missing times (`none` for NaT or NaN). The attribute `times` after the call is not modelled.
* `XmlText.lean`: Model of the reading of QuakeML at the level of characters: `xml.sax` with the expat reader as it is used by seismostats/io/parser.py:282-356. The text is handed over in buffers (`xml.sax.expatreader` reads 65516 bytes at a time). Character data between two tags is delivered in one call unless a buffer ends within it. Subset of XML: elements, attributes, character data, predefined and character references, processing instructions. Comments, CDATA sections and document types are not modelled (an error here), names are checked for ASCII only, `]]>` in character data is accepted. pyexpat also delivers character data of more than 8192 characters in several calls (not modelled; with single words any division gives the same record).

## Defects and limits of the code, proved as theorems

Each is stated next to the property it limits; the theorem names are in MANIFEST.json.

* **C08** the documented delta_x = 0 mode always raises, with the default tolerance, for entries spread by more than 1e-14.
* **C11** a non-empty array of NaN only raises ValueError instead of giving NaN.
* **C12** after a failed calculate the old b_value is still reported together with n and magnitudes of the rejected input.
* **C22** with no usable difference the result is NaN without weights but ZeroDivisionError with weights.
* **C25** unlike the other estimators it raises ValueError for every non-empty selection with delta_m = 0.
* **C27** return_n without return_std raises TypeError.
* **C29** after that exception the unscaled value is left behind as a_value.
* **C30** without a used difference, times keeps all selected events while magnitudes and idx are empty.
* **C31** b_value = 0 is rejected as missing.
* **C32** a completeness period without events makes all results NaN; no complete event raises ZeroDivisionError; b_parameter='beta' never returns.
* **C33** all events in one bin make the deviation NaN; a complete event at or above mag_max+0.01 raises AttributeError; b_parameter='beta' never returns.
* **C35** a single-valued sample gives p = 0 with warnings on and may give p = 1 with warnings off; the empty sample raises although a guard for it exists.
* **C36** given ks_ds_list is used in the order of the sorted distinct mcs, not of the list the caller gave; if all magnitudes are equal the default list is empty and the call raises with warnings on and returns None with warnings off.
* **C38** if the first difference is NaN the result is None whatever follows; a best mc of 0.0 is reported as None with its b-value; a stability range of at most one bin leaves no default candidate: the call raises with warnings on and returns None with warnings off.
* **C42** with x_variable, a list mc is not reordered together with the events, so events are compared with another event's mc. Limit, proved: weights per event cannot be given; a keyword weights of another length than n_m is an error as soon as there are three windows of events.
* **C43** in a part with fewer times than magnitudes the surplus magnitudes are silently dropped; a list of weights is used by position in the time order of each part and does not follow its events, so the same weighted events given in another order have another estimate. Limit, proved: the one list of weights is used for every part, so parts of different sizes cannot be weighted.
* **C44** index labels are used as positions, so a catalogue with another index gets wrong flags or raises IndexError.
* **C45** the Gardner-Knopoff time window shrinks at magnitude 6.5; time_cutoff=0 is ignored; Gruenthal windows are NaN below magnitude -0.0363.
* **C47** white space next to a chunk boundary inside a text is lost, so 'quarry ' + 'blast' is read as 'quarryblast'; one event with a magnitude without type makes the whole document unreadable.
* **C48** a magnitude type named 'type' overwrites magnitude_type, a type 'ML_uncertainty' overwrites the uncertainty of ML.
* **C49** drop_ids is documented to drop the columns with exactly these names, but drops every column ending so.
* **C51** an unsuccessful mc search overwrites mc with None; with a stored b-value the KS search cannot be made to estimate b; weights for an estimator without weights are silently dropped.
* **C52** a secondary magnitude whose column name contains the preferred type as a substring is lost, MLhc with ML; a row without magnitude type loses all secondary magnitudes; lower and upper uncertainties and confidence levels are not written; secondary magnitudes without an id column get the empty publicID; an origin id with surrounding white space loses the origin on reading; forecast rows without catalog_id are in no document.
* **C53** if one time is outside the range of pandas every event loses its fraction of a second; with such a time a catalogue of numbers only, some of them floats, raises TypeError; an event without time is converted to OpenQuake but can not be read back (ValueError); an empty catalogue comes back without columns; columns named like a time unit are overwritten.
* **C54** a Catalog that gets a catalog_id column becomes a ForecastCatalog with the required columns of a Catalog, so strip drops catalog_id.
* **C55** rows with the same bounds, one of them missing, get different numbers although equal_nan is asked for; selecting rows numbers the cells anew, so a cell does not keep its number; without end times the end time becomes the latest start time; a column called 'cell' is lost.
* **C56** the function is also applied to the bounds, so that with a sum the bounds of the result are wrong; a bound missing in all rows or an empty grid raises KeyError; rows with a missing bound are dropped silently.
* **C58** vertices are documented as (x, y), but their first coordinate is compared with the latitude, so a box of longitudes and latitudes keeps none of its events; an empty catalogue, so also the result of a filter that keeps nothing, is a ValueError; a column called 'inside_polygon' is lost.
* **C59** mag_max = 0 is ignored; a maximum that is not on the grid is exceeded by binned magnitudes.
* **C60** the result is ordered by bin, not by event; a magnitude whose upper bin edge is zero gets a value without upper bound; an array with all magnitudes equal, as of a single event, is rejected.
* **C61** the bounds are returned in another order than they are taken, so handing the tuple of one function to the other changes the box.
* **C62** below that the order is reversed; types as mb_Lg are taken for local magnitudes.
* **C64** if all magnitudes are equal every size is NaN (unless the power is zero); with a negative power the smallest magnitude has an infinite dot.
* **C66** it appends to the lists of the caller, after k calls both have k more entries; with years only the list of completeness magnitudes grows, so that a second call with the same arguments is a ValueError.
* **C67** an offset written after the fraction is silently ignored, so two different instants are read as the same; when one string of the column is not ISO 8601 all strings go through this path.
* **C71** with weights the line starts at the number of events instead of their weight; with a missing magnitude weights for all events are a ValueError.
* **C75** mc as a list is a TypeError; n_ms as a list is a TypeError as soon as a value is significant; an array mc is not reordered with x_variable; marks are one-sided and the drawn band two-sided, so points inside the band can be marked and points below it never are.
* **C78** with weights a single resample without a pair, e.g. one event drawn every time, makes reading std fail although the b-value exists.
* **C72** with a single magnitude for several events every dot has size NaN, so nothing is seen and nothing is raised.
* **C76** with mc off the grid there are draws for which it fails; magnitudes that also lie on a ten times coarser grid - all equal, or whole numbers in bins of 0.1 - are accepted by calculate but have no p-value; n = 0 gives NaN.
* **C79** for any schedule of losses, a response that ends before its document does, or one without events - an error page, whatever its status code - is taken for the whole answer: the call succeeds and the missing events are silently absent, in batches from the middle of the catalogue too; if the magnitudes chosen for the matching events all lack a value, a call with the default column switches fails with an AttributeError, while with include_ids=True the same events come back as a plain data frame.
* **C81** for mc halfway between two grid values, whether the lower one is used depends on the digits: with delta_m 0.1, 0.5 is used for mc 0.55 but 2.3 is not for mc 2.35.
* **C83** the two numbers need not be equal: with delta_m 0.1 and the default range 0.5, six b-values are summed for the candidate 1.7 and the sum is divided by 5, so that the average is 6/5 of the common b-value and the candidate is wrongly rejected; whether the largest magnitude is itself a default candidate depends on the digits: not for magnitudes 0.1 to 0.3, but for 0.1 to 0.4.
* **C84** above 8 correctly binned magnitudes can be rejected: binning_test fails for [7.4, 8.2] with bin size 0.1, so the estimators raise 'Magnitudes are not binned correctly'.
* **C85** after assigning magnitudes, std of the classic, Utsu and b-positive estimators combines the old b-value with the spread and number of the new magnitudes; assigning weights after a calculation without weights makes std of b-more-positive raise TypeError, or, if an earlier calculation had weights, silently resamples the present magnitudes with the weights of that earlier data set.
* **C86** values are not escaped, so that with an agency such as 'R & D' or 'a < b' nothing that is written can be read; the text of a value is stripped in each buffer, so that a value of several words that happens to be cut by the end of a 64 kB buffer loses its blank: the event type 'quarry blast' is read as 'quarryblast'.
* **C87** a file cut between two tags is read without any error, the missing events are not noticed.
* **C88** if no event has a magnitude, from_dict without uncertainties and identifiers - so from_quakeml with its default arguments - raises AttributeError, as dropping columns gives a plain data frame first; secondary magnitudes, uncertainties and depthphasecount stay texts, they are not converted to numbers.
* **C89** a column called dmc makes b-positive and b-more-positive raise ValueError; estimate_a with a-more-positive ignores the b-value stored in the catalogue and raises ValueError if none is given in the call.) (Limit, proved: a column called weights is ignored.
* **C90** a b-value estimated for a completeness magnitude given in the call of estimate_b is drawn by plot_cum_fmd from the smallest event on, as the completeness magnitude is not stored; plot_cum_count without completeness magnitudes draws nothing if the first event has no magnitude.) (Limit, proved: plot_mc_vs_b ignores the columns of weights and times that estimate_b uses.
* **C93** a GRRateGrid to which grid_id was added becomes a ForecastGRRateGrid in the next operation, but its strip drops grid_id and gives a GRRateGrid, because the required columns are copied like an attribute; n_grids is lost when grid_id is removed and added again.
* **C96** for binned magnitudes UtsuBValueEstimator converges to a number smaller than b.
* **C98** for such magnitudes and b * ln 10 * fmd_bin <= 0.9 - so for b = 1 and fmd_bin = 0.1 - it is mc + fmd_bin + correction_factor, one bin too large, because the first bin of the histogram is only half filled.
* **C99** this factor is below 1, so with binned magnitudes the reported std is too small and the coverage stays strictly below the nominal rate, whatever the size of the catalogue; for b = 1, delta_m = 0.1 the factor is about 0.996.
* **C100** the returned mu_mac = -1/mean(n) is the expectation only if n_m divides N + 1; otherwise it is larger, by at most 1/(4k(k-1)^2) with k = N // n_m.
* **C101** with warnings on, the probability that all magnitudes of the sample are equal comes on top, because the function then returns p = 0; a sample of a single magnitude is always rejected.
* **C104** a probe answered by an error is taken for the end of the data: if the first probe fails at most two batches are returned, and a single failing probe in the bisection can leave the first batch only, each time without exception; an event that appears at the beginning of the list between two batches - the usual place, services list the latest event first - makes the last event of the batch come twice, and one that is withdrawn makes an event in the middle missing.
* **C106** for binned magnitudes with mc on the grid and dmc a positive multiple of the bin width both limits are larger by the factor 10^(b delta_m / 10^12), because bin_to_precision rounds values just below a bin edge up; for bin widths used in practice this is below one part in 10^11.
* **C107** for binned magnitudes the limits of a-more-positive have the factor of C106.
* **C108** a NaN stored as b-value counts as known, and the KS search with simulated distances then raises ValueError; with warnings on a candidate above all magnitudes is a failed test from a catalogue but a ValueError from an array; a search that finds nothing replaces a stored mc by None, so that estimate_b and estimate_a raise ValueError.
* **C109** with binned magnitudes the Utsu estimates converge to less than b; an mc' up to half a bin above a bin makes the classic estimates converge to more than b, less than half a bin below a bin to less than b.
* **C110** with a correction that is not a number of bins, such as the default 0.2 with bins of 0.3, the stored b-values converge to another number than b.
* **C111** then ClassicBValueEstimator converges to two thirds of b.
* **C114** the estimators know no maximum magnitude, so this limit is always larger than b; for b = 1 and a range of one magnitude unit it is above 1.3.
* **C115** delta_m is not used for the b-value; with binned magnitudes and completeness magnitudes at left bin edges, as documented, the estimates converge to a number below b; with completeness magnitudes at bin centres the first complete bin is not counted and the limit, (1 - 10^(-b delta_m))/(delta_m ln 10), is lower still.
* **C117** weights that depend on their own magnitude bias the estimate. Defect, proved: the standard deviation takes the sum of the weights for the number of events, so equal weights k leave the estimate unchanged but change the coverage of the intervals: too small for k > 1, too large for k < 1.
* **C118** for binned magnitudes with mc on the grid and dmc a positive multiple of the bin width the limit is larger by the factor 10^(b delta_m / 10^12), as in C106.
* **C119** with the default last_year, the last year with an event, the events of that year are used but its length is not part of the exposure; if the events are spread evenly over the whole years up to and including it and the completeness years differ, the estimates converge to a number above b.
* **C122** the estimators do not correct this bias, which is 100 % for two magnitudes, 11 % for ten and 2 % for fifty; with two magnitudes the variance is infinite.
* **C123** with a completeness magnitude on the magnitudes' grid, which the alignment assertion never rejects, an event of magnitude 3.3 is counted in the bin that starts at 3.2, since the edge 3.3 is computed as 3.3000000000000003.
* **C124** a single event with magnitude NaN in or after the year of the last row makes estimate_b_weichert fail with an AttributeError, whatever the other events are.
* **C125** fractional completeness years count from the next 1 January: with 1990.1 an event of 31 December 1990 is not complete.
* **C126** with the default mcs_test a single NaN makes estimate_mc_ks fail with a ValueError; a single NaN makes estimate_mc_b_stability fail with a ValueError, whatever mcs_test is. As the column of a Catalog the same magnitudes are accepted, and estimate_mc_maxc drops the NaN itself.
* **C128** if the longitude or latitude of the first event is missing, set_extent is given NaN for these limits, or with axes given the limits of these axes, wherever the other events are; with an array of magnitudes, one missing magnitude takes the size of all dots.
* **C129** an event without a time is not dropped by the b-positive estimators: the difference to it counts; the a-positive and a-more-positive value are NaN if a single used event has no time.
* **C130** if the magnitude of the first event is NaN, the default plot is empty, whatever the other events are; a NaN at any other place does no harm.
* **C131** a single NaN makes get_fmd, and get_cum_fmd with a bin size other than zero, fail with a ValueError, whatever the other arguments are. Defect, proved: with fmd_bin = 0 get_cum_fmd does not reject NaN: it returns NaN as an additional last magnitude, and every cumulative count is too large by the number, or total weight, of the missing magnitudes compared with the result for the other events; plot_fmd and plot_cum_fmd drop missing magnitudes but not their weights, so that with weights, one per event, a single NaN makes them fail with a ValueError.
