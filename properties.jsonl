{"id": "C01", "title": "Cached function evaluates each argument at most once", "statement": "Between two clearings of a CachedFunction, the wrapped function is invoked at most once for each distinct non-NaN argument, no matter how many threads request it.", "quantifier": "For every wrapped function, every number of threads, every multiset of requested arguments and every interleaving of the threads' lock operations.", "why_tests_cant": "A test observes a handful of schedules; the interesting interleavings (a waiter overtaking the computing thread, several waiters leaving in any order) cannot be forced or enumerated.", "anchors": ["src/caching.h: CachedFunction::operator()", "src/caching.h: CachedFunction::in_process"]}
{"id": "C02", "title": "Cached function returns the wrapped function's value", "statement": "Every call of a CachedFunction that returns, returns exactly the value of the wrapped function at the argument the caller passed, whether the value was computed, waited for or found in the cache.", "quantifier": "For every wrapped function, every number of threads, every sequence of calls per thread and every interleaving in which clearing happens only while no call is in flight.", "why_tests_cant": "Requires all interleavings and unbounded call histories.", "anchors": ["src/caching.h: CachedFunction::operator()"]}
{"id": "C03", "title": "Cached function never aborts or misuses a lock", "statement": "Concurrent calls of a CachedFunction never reach the DUPLICATE abort, never release a lock the thread does not hold, and never touch the book-keeping record of a computation that is not in progress.", "quantifier": "For every number of threads, arguments and interleavings without an overlapping clear.", "why_tests_cant": "Absence of a fault in all schedules is a safety property over an infinite set of executions.", "anchors": ["src/caching.h: CachedFunction::operator()"]}
{"id": "C04", "title": "Cached function calls always complete", "statement": "If the wrapped function terminates, then as long as some call is in flight some thread can make progress, and the total number of remaining steps strictly decreases, so every call returns; no deadlock or lost wake-up is possible.", "quantifier": "For every finite set of threads with one pending call each and every interleaving.", "why_tests_cant": "Deadlock freedom quantifies over all schedules; a test that does not hang proves nothing about the others.", "anchors": ["src/caching.h: CachedFunction::operator()"]}
{"id": "C05", "title": "Clearing a function cache concurrently with calls is harmless", "statement": "A ClearCache that overlaps running calls never makes a call return something other than the wrapped function's value. (Does not hold: ClearCache takes no lock, and a waiter can return a default-constructed value, which also stays in the cache.)", "quantifier": "For every interleaving of calls and ClearCache invocations.", "why_tests_cant": "Needs a specific three-party race between the computing thread, a waiter and the clearing thread.", "anchors": ["src/caching.h: CachedFunction::ClearCache", "src/caching.h: CachedFunction::operator()"]}
{"id": "C06", "title": "A cache stays usable after its function throws", "statement": "If the wrapped function throws, the exception reaches the caller and later calls with the same argument behave like first calls. (Does not hold: the in-progress record stays locked and the next call with that argument blocks forever.)", "quantifier": "For every argument, every history of calls and every choice of which evaluations throw.", "why_tests_cant": "The failing behaviour is a permanent hang in a later call, possibly in another thread.", "anchors": ["src/caching.h: CachedFunction::operator()", "src/loss_functions.cpp: SimpleLossFn::CalculateUnadjustedLoss"]}
{"id": "C07", "title": "NaN arguments and disabled caches bypass the cache", "statement": "A call with a NaN argument, or on a cache created inactive, always evaluates the wrapped function afresh, never blocks on another call's computation, and leaves the cache contents unchanged.", "quantifier": "For every state of the cache reachable by any interleaving and every argument that compares unordered.", "why_tests_cant": "NaN never equals itself, so storing it would leak entries that no test lookup reveals; all cache states must be covered.", "anchors": ["src/caching.h: CachedFunction::operator()"]}
{"id": "C08", "title": "Cached value is computed once and shared", "statement": "Before the first clearing, a CachedValue evaluates its function at most once and every call returns that single result, under any number of concurrent callers, and all calls complete.", "quantifier": "For every number of threads, calls per thread and interleaving.", "why_tests_cant": "Same as C01: all schedules.", "anchors": ["src/caching.h: CachedValue::operator()"]}
{"id": "C09", "title": "Cached value can be cleared and refilled safely", "statement": "After ClearCache the next call recomputes, concurrent callers wait for the new value, and the lock protocol stays legal. (Does not hold: the waiting lock is released only once and never re-acquired, so the refill releases an unlocked lock and concurrent callers return the stale value.)", "quantifier": "For every sequence of calls and clearings and every interleaving of callers.", "why_tests_cant": "Sequential tests pass because the released lock happens to be ignored; the stale result needs a second thread inside the recomputation window.", "anchors": ["src/caching.h: CachedValue::operator()", "src/caching.h: CachedValue::ClearCache"]}
{"id": "C10", "title": "Clear_Caches reaches exactly the live caches", "statement": "Caching::Clear_Caches invokes the clear function of every cache constructed and not yet destroyed, exactly once each, and of no destroyed cache.", "quantifier": "For every history of cache constructions, destructions (including address reuse) and clearings.", "why_tests_cant": "Unbounded histories and arbitrary address reuse.", "anchors": ["src/caching.cpp: Add_Cache", "src/caching.cpp: Remove_Cache", "src/caching.cpp: Clear_Caches"]}
{"id": "C11", "title": "Change notifications reach exactly the registered clients", "statement": "On an object that has not been replaced into, notify_change runs the change callback of each currently registered client exactly once, in registration order, and runs none that was removed.", "quantifier": "For every history of add_callbacks and remove_callbacks calls, including removal of unknown or repeated ids.", "why_tests_cant": "All histories of unbounded length.", "anchors": ["src/replaceable.h: Replaceable::add_callbacks", "src/replaceable.h: Replaceable::remove_callbacks", "src/replaceable.h: Replaceable::notify_change"]}
{"id": "C12", "title": "Registration handles identify one client", "statement": "The id returned by add_callbacks identifies that client until it is removed: no other registration gets the same id and removing the id removes exactly that client. (Fails on an object that received clients through replace: its id counter is not advanced, so a later registration silently evicts a transferred client.)", "quantifier": "For every history of registrations, removals and replacements over any number of objects.", "why_tests_cant": "The eviction shows up only as a missing notification much later.", "anchors": ["src/replaceable.h: Replaceable::add_callbacks", "src/replaceable.h: Replaceable::replace"]}
{"id": "C13", "title": "Replacement hands over every client", "statement": "replace(new) runs every client's replace callback exactly once with the new object, leaves the old object without clients, and later notifications on the new object reach exactly the handed-over clients. (Fails when the new object already had clients, which are dropped, and when an object is replaced by itself, which drops all clients.)", "quantifier": "For every pair of objects and every callback table reachable by any history.", "why_tests_cant": "Needs all reachable tables of both objects.", "anchors": ["src/replaceable.h: Replaceable::replace"]}
{"id": "C14", "title": "Log-normal constructors and accessors are inverse", "statement": "A distribution built from (mean, sd), (mean, sd of log), (median, sd of log) or (mean of log, sd of log) reports back exactly the parameters it was built from, for positive mean/median and non-negative spread; a zero mean with zero spread reports mean 0 and sd 0.", "quantifier": "For all real parameters in the stated domain.", "why_tests_cant": "Continuum of parameters; the identities combine exp, log and sqrt.", "anchors": ["src/lognormaldist.cpp: LogNormalDist_from_mean_X_and_sigma_X", "src/lognormaldist.cpp: get_mean_X", "src/lognormaldist.cpp: get_sigma_X"]}
{"id": "C15", "title": "Exceedance probabilities are probabilities", "statement": "For a distribution with numeric parameters and positive spread, and non-negative x, p_at_most is the distribution function of the log-normal law: p_at_most and p_at_least lie in [0,1], sum to 1, p_at_most strictly increases and p_at_least strictly decreases in x, and the median splits them in halves; an unset distribution answers NaN. (Negative x, and x equal to the value of a distribution without spread, are answered with NaN.)", "quantifier": "For all parameters and all pairs of positive x.", "why_tests_cant": "Monotonicity and complementarity over a continuum.", "anchors": ["src/lognormaldist.cpp: p_at_least", "src/lognormaldist.cpp: p_at_most"]}
{"id": "C16", "title": "Adding distributions adds means and variances", "statement": "AddDistributions returns a distribution whose mean is the sum of the means and whose variance is the sum of the variances, independent of the order of the list.", "quantifier": "For every list (any length) of distributions with finite moments, total mean positive.", "why_tests_cant": "Unbounded list length.", "anchors": ["src/lognormaldist.cpp: AddDistributions"]}
{"id": "C17", "title": "Weighted mixture has the mixture's moments", "statement": "AddWeightedDistributions returns mean sum(w_i m_i) and variance sum(w_i (m_i^2+s_i^2)) - mean^2 whenever that is non-negative (in particular for non-negative weights summing to at most 1), and rejects lists of different lengths.", "quantifier": "For every pair of lists of distributions and weights of any length.", "why_tests_cant": "Unbounded lists; the non-negativity of the variance is an inequality (Jensen), not a sample.", "anchors": ["src/lognormaldist.cpp: AddWeightedDistributions"]}
{"id": "C18", "title": "Scaling a distribution scales its mean and sd", "statement": "ScaleDistributionByProbability/ByNumComponents/ApplyAdjustmentFactor by k>0 multiply mean and standard deviation by k, keep the log dispersion, and compose multiplicatively; scaling by 0 gives mean 0.", "quantifier": "For all positive factors and all distributions.", "why_tests_cant": "Continuum.", "anchors": ["src/lognormaldist.cpp: ApplyAdjustmentFactor"]}
{"id": "C19", "title": "Every documented parameterisation of a log-normal function is usable", "statement": "For each combination of how mu and sigma functions are interpreted, the resulting function reports the supplied quantities back. (Fails for mean-of-log or median combined with plain standard deviation: evaluation recurses forever.)", "quantifier": "For every pair of deterministic functions, every x and all six combinations.", "why_tests_cant": "Non-termination cannot be observed by a test, and identities are over a continuum.", "anchors": ["src/functions.cpp: LogNormalFn::LogNormalFn", "src/functions.cpp: LogNormalFn::distribution"]}
{"id": "C20", "title": "Hyperbolic hazard curve is a valid rate curve", "statement": "For positive alpha, IM_asy and v_asy, the non-linear hyperbolic law is non-negative, below v_asy, non-increasing in x > 0, and exactly 0 from IM_asy on.", "quantifier": "For all positive parameters and all pairs x <= y.", "why_tests_cant": "Continuum.", "anchors": ["src/functions.cpp: NonLinearHyperbolicLaw::Evaluate"]}
{"id": "C21", "title": "Linear interpolation is faithful and clamped", "statement": "A LinearInterpolatedFn over strictly increasing x returns the given y at each given x, returns the end values outside the range, always stays within the range of the data, and is monotone when the data are.", "quantifier": "For every table of at least two points and all x.", "why_tests_cant": "Unbounded tables and continuum of x.", "anchors": ["src/functions.cpp: LinearInterpolatedFn::Evaluate"]}
{"id": "C22", "title": "Fragility constructor accepts exactly increasing onsets", "statement": "A fragility function is created iff the list of onsets is non-empty and its medians are strictly increasing (for numeric parameters); it then has one state per onset in the given order.", "quantifier": "For every list of onset distributions.", "why_tests_cant": "Unbounded lists.", "anchors": ["src/fragility.cpp: FragilityFn::FragilityFn", "src/fragility.cpp: n_states"]}
{"id": "C23", "title": "Damage-state probabilities are consistent", "statement": "pHighest returns one value in [0,1] per state; when the exceedance probabilities are non-increasing across states they equal successive differences and sum to the probability of reaching the first state (hence at most 1). (The sum bound fails when dispersions differ enough for the curves to cross.)", "quantifier": "For every number of states and every EDP value.", "why_tests_cant": "Unbounded number of states, continuum of demands; failure requires crossing curves.", "anchors": ["src/fragility.cpp: pExceeded", "src/fragility.cpp: pHighest"]}
{"id": "C24", "title": "Two-level unit cost interpolates between its bounds", "statement": "The mean unit cost of a two-level loss equals the low-count cost up to the lower count, the high-count cost from the upper count on, and otherwise lies between them, varying monotonically and without division by zero.", "quantifier": "For all counts, bounds (in any order) and costs.", "why_tests_cant": "All integer inputs including degenerate bounds.", "anchors": ["src/loss_functions.cpp: BiLevelLoss::LossFunctionsForCount_calc"]}
{"id": "C25", "title": "Component loss scales with count, adjustment and probabilities", "statement": "CalculateLoss returns a distribution with mean count x adjustment x sum(p_i mean_i) and rejects probability vectors of the wrong length.", "quantifier": "For all loss functions with any number of states, counts, factors and probability vectors.", "why_tests_cant": "Unbounded vectors, continuum.", "anchors": ["src/loss_functions.cpp: LossFn::CalculateLoss", "src/loss_functions.cpp: SimpleLossFn::CalculateUnadjustedLoss", "src/loss_functions.cpp: BiLevelLossFn::CalculateUnadjustedLoss"]}
{"id": "C26", "title": "Fate probabilities partition the outcomes", "statement": "At every intensity pRepair + pDemolition + pCollapse = 1, and each lies in [0,1] whenever demolition is at least as likely as collapse. (Without that, pDemolition is negative.)", "quantifier": "For every collapse/demolition setting (set or unset) and every intensity.", "why_tests_cant": "Continuum and all settings.", "anchors": ["src/relationships.h: IM::pCollapse", "src/relationships.h: IM::pDemolition", "src/relationships.h: IM::pRepair"]}
{"id": "C27", "title": "Structure total cost is the expectation over fates", "statement": "The mean of TotalCost equals the sum of the means of CostsByFate: repair x P(repair) + demolition x P(demolition) + rebuild x P(collapse), and its variance is the mixture variance, non-negative whenever the fate probabilities are probabilities.", "quantifier": "For every list of component groups, cost settings and intensities.", "why_tests_cant": "Unbounded component lists, continuum.", "anchors": ["src/structure.cpp: Structure::TotalCost", "src/structure.cpp: Structure::CostsByFate", "src/structure.cpp: Structure::CostNC"]}
{"id": "C28", "title": "Discounted cost grows with the horizon and stays below the perpetuity", "statement": "For a positive discount rate and non-negative annual cost, E_cost is 0 at year 0, non-decreasing in the years, at most annual cost x years and below annual cost / rate. (At rate 0 it is 0/0 instead of annual cost x years.)", "quantifier": "For all years, rates and annual costs.", "why_tests_cant": "Continuum.", "anchors": ["src/structure.cpp: Structure::E_cost"]}
{"id": "C29", "title": "Structure component list behaves as a list with one IM", "statement": "AddCompGroup appends or fails with 'WRONG IM' leaving the list unchanged; RemoveCompGroup removes the first occurrence only; Components returns the surviving groups in order of addition; all groups shared one IM when added.", "quantifier": "For every sequence of additions and removals.", "why_tests_cant": "Unbounded histories.", "anchors": ["src/structure.cpp: Structure::AddCompGroup", "src/structure.cpp: Structure::RemoveCompGroup", "src/structure.cpp: Structure::Components"]}
{"id": "C30", "title": "Integration always terminates within its evaluation budget", "statement": "MAQ terminates for every integrand; the reported evaluation count never exceeds the integration limit plus one or the search result plus four, and the integrand is really evaluated at most about twice the limit.", "quantifier": "For every integrand (including NaN, infinite or oscillating values), tolerance, limit and search method.", "why_tests_cant": "All integrands.", "anchors": ["src/maq.cpp: MAQ", "src/maq.cpp: directed_search"]}
{"id": "C31", "title": "A successful integral is a composite rule over a partition", "statement": "When MAQ succeeds after the search, the integral is the sum of five-point Boole estimates over subintervals that exactly tile the bracket found by the search, without gaps or overlaps.", "quantifier": "For every integrand and all settings.", "why_tests_cant": "The subdivision tree is data dependent and unbounded.", "anchors": ["src/maq.cpp: MAQ"]}
{"id": "C32", "title": "Non-negative integrands give non-negative integrals", "statement": "If the integrand is finite and non-negative everywhere, a successful MAQ result is non-negative.", "quantifier": "For every non-negative integrand and all settings.", "why_tests_cant": "All integrands; the Richardson correction subtracts terms.", "anchors": ["src/maq.cpp: MAQ", "src/maq.cpp: quad"]}
{"id": "C33", "title": "Exactness for cubic transformed integrands", "statement": "If the transformed integrand agrees with a polynomial of degree at most three on the bracket, MAQ's result is the exact integral of that polynomial over the bracket, reached in a single step.", "quantifier": "For all cubic polynomials, brackets and positive tolerances.", "why_tests_cant": "Continuum of polynomials.", "anchors": ["src/maq.cpp: MAQ", "src/maq.cpp: quad"]}
{"id": "C34", "title": "NaN is never reported as a successful integral", "statement": "If MAQ reports success with finite integrand values, the integral is a number; a NaN integrand value met during integration always yields an unsuccessful NaN result.", "quantifier": "For every integrand and all settings.", "why_tests_cant": "All integrands and subdivision paths.", "anchors": ["src/maq.cpp: MAQ"]}
{"id": "C35", "title": "Integration covers the whole half line", "statement": "A successful MAQ result approximates the integral over [0, infinity). (Fails: when the search has to move away from the initial points, only the bracket around the found point is integrated and the mass outside it is dropped.)", "quantifier": "For every integrand.", "why_tests_cant": "Loss of mass is silent; needs integrands vanishing at the probe points.", "anchors": ["src/maq.cpp: binary_subdivision", "src/maq.cpp: directed_search", "src/maq.cpp: MAQ"]}
{"id": "C36", "title": "Integration statistics add up", "statement": "After any sequence of integrations since a reset, calls = successes + search failures + integration failures + NaN results, also under concurrent calls; the recorded maxima are the true maxima. (The latter fails under concurrency: the maximum is tested outside the critical section.)", "quantifier": "For every sequence of integrations and every interleaving of concurrent ones.", "why_tests_cant": "All histories and interleavings.", "anchors": ["src/maq.cpp: MAQ", "src/maq.cpp: reset_statistics"]}
{"id": "C37", "title": "Integration settings stay valid", "statement": "Whatever sequence of setter calls is made, the tolerance and both limits in force are positive, a rejected value leaves the previous one in force, and Reset restores the documented defaults.", "quantifier": "For every sequence of setting operations with any arguments.", "why_tests_cant": "Unbounded histories, all arguments including NaN.", "anchors": ["src/maq.cpp: IntegrationSettings::Set_Tolerance", "src/maq.cpp: IntegrationSettings::Set_Integration_Eval_Limit", "src/maq.cpp: IntegrationSettings::Reset"]}
{"id": "C38", "title": "EDP rates are never stale", "statement": "After any sequence of replacements and parameter changes below an EDP, its rate of exceedance equals what a freshly built EDP over the current objects would report.", "quantifier": "For every history of queries, replacements of deterministic/probabilistic functions and IMs, and collapse/demolition settings.", "why_tests_cant": "Staleness depends on the whole history and the callback graph.", "anchors": ["src/relationships.cpp: EDP::EDP", "src/functions.cpp: ProbabilisticFn::ProbabilisticFn", "src/relationships.cpp: IM::IM"]}
{"id": "C39", "title": "Component group results are never stale", "statement": "After any sequence of changes to its EDP, fragility, cost or delay functions, every result a component group reports equals the recomputed one.", "quantifier": "For every history of queries and replacements.", "why_tests_cant": "As C38.", "anchors": ["src/comp_group.cpp: CompGroup::CompGroup"]}
{"id": "C40", "title": "IM collapse and demolition rates are never stale", "statement": "After any change of the hazard curve or the collapse/demolition distributions, CollapseRate and DemolitionRate equal the recomputed values. (Fails: replacing the hazard curve clears neither, and setting collapse does not clear the demolition rate.)", "quantifier": "For every history.", "why_tests_cant": "Staleness depends on the history of queries before the change.", "anchors": ["src/relationships.cpp: IM::IM", "src/relationships.h: IM::SetCollapse"]}
{"id": "C41", "title": "Structure annual cost is never stale", "statement": "After any change below a structure, AnnualCost equals the recomputed value. (Fails: component groups do not propagate changes, and setRebuildCost, setDemolitionCost and RemoveCompGroup do not clear it.)", "quantifier": "For every history.", "why_tests_cant": "As C40.", "anchors": ["src/structure.cpp: Structure::AddCompGroup", "src/structure.h: setRebuildCost", "src/comp_group.cpp: CompGroup::CompGroup"]}
{"id": "C42", "title": "Compound EDP follows replacement of both demand functions", "statement": "After replacing either demand function of a compound EDP, the compound EDP uses the replacement in that position. (Fails for the second: the first is overwritten instead.)", "quantifier": "For every history of replacements.", "why_tests_cant": "Requires reasoning about all histories; the wrong slot often gives plausible values.", "anchors": ["src/relationships.cpp: CompoundEDP::CompoundEDP"]}
{"id": "C43", "title": "A script does what its commands say", "statement": "Running a script makes exactly the API calls its commands describe, in order and with the arguments written, with variables and titles in effect from the command after the one that sets them; every command leaves the interpreter's value stack and saved-stack list empty; a script stops early only because one of its Python expressions raises. (Known exceptions: loglog/linear functions, function references through variables, quoted dictionary keys, a variable as the evaluation limit, --annual without both attributes.)", "quantifier": "For every parse tree of the command grammar (unbounded lists, nested dictionaries), every script, every assignment of variables and every behaviour of eval.", "why_tests_cant": "Infinite set of parse trees and scripts; a handler that pops one value too many or in the wrong order is only visible for particular combinations of optional clauses.", "anchors": ["src/SlatInterpreter.py: SlatInterpreter", "src/slatParser.g4"]}
{"id": "C44", "title": "Components grouped by EDP or fragility form a partition", "statement": "ComponentsByEDP and ComponentsByFragility return non-empty groups, every component occurs in exactly one group, two components are in the same group iff they share the EDP (fragility), and order within groups is preserved.", "quantifier": "For every list of components.", "why_tests_cant": "Unbounded lists.", "anchors": ["src/pyslatcore.cpp: Structure::ComponentsByEDP", "src/pyslatcore.cpp: Structure::ComponentsByFragility"]}
{"id": "C45", "title": "Bulk queries equal element-wise queries under any schedule", "statement": "The vector forms (lambda, pCollapse, pDemolition, pRepair, Mean, SD, E_cost, ...) return, for any distribution of iterations over threads and any interleaving, the vector of the scalar results in input order.", "quantifier": "For all input vectors, numbers of threads, iteration assignments and interleavings.", "why_tests_cant": "All schedules.", "anchors": ["src/relationships.cpp: IM::lambda(vector)", "src/relationships.cpp: EDP::par_lambda", "src/structure.cpp: Structure::E_cost(vector)"]}
{"id": "C46", "title": "Reported moments are the moments of the log-normal law", "statement": "get_mean_X and get_sigma_X of a distribution with parameters (mu, sigma) are the expectation and the standard deviation of exp(Z), Z Gaussian with mean mu and standard deviation sigma.", "quantifier": "For all real mu and sigma.", "why_tests_cant": "The claim relates closed formulas to integrals over the whole real line.", "anchors": ["src/lognormaldist.cpp: LogNormalDist::get_mean_X", "src/lognormaldist.cpp: LogNormalDist::get_sigma_X"]}
{"id": "C47", "title": "Percentiles invert the distribution function", "statement": "x_at_p(p) is, for 0 < p < 1, the unique non-negative x with p_at_most(x) = p; it is 0 at p = 0 and infinite at p = 1.", "quantifier": "For all real mu, positive sigma and all probabilities.", "why_tests_cant": "Uniqueness and existence over a continuum of probabilities.", "anchors": ["src/lognormaldist.cpp: LogNormalDist::x_at_p", "src/functions.cpp: LogNormalFn::X_at_exceedence"]}
{"id": "C48", "title": "Power-law curve starts at zero and increases", "statement": "For positive coefficient and exponent the power law is 0 at 0, equals the coefficient at 1, strictly increases, and scales as f(kx) = k^b f(x).", "quantifier": "For all positive parameters and all non-negative arguments.", "why_tests_cant": "Quantifies over all pairs of arguments.", "anchors": ["src/functions.cpp: PowerLawParametricCurve::Evaluate"]}
{"id": "C49", "title": "Log-log interpolation is faithful and clamped", "statement": "A LogLogInterpolatedFn over positive data with strictly increasing x returns the given y at each given x, follows a power law between neighbours, is constant beyond the ends, stays within the range of the data, and is monotone when the data are.", "quantifier": "For all tables of at least two positive points and all arguments.", "why_tests_cant": "All table sizes and all real arguments.", "anchors": ["src/functions.cpp: LogLogInterpolatedFn::LogLogInterpolatedFn", "src/functions.cpp: LogLogInterpolatedFn::Evaluate"]}
{"id": "C50", "title": "Cost with collapse is the mixture over repair and collapse", "statement": "Structure::Cost(im, true) mixes the summed component cost and the rebuild cost by the probability of collapse, Cost(im, false) is the plain sum, DeaggregatedCost returns the two parts, and without demolition settings Cost(im, true) equals TotalCost(im).", "quantifier": "For every list of component groups, rebuild cost, collapse setting and intensity.", "why_tests_cant": "Quantifies over lists of groups of any length and real parameters.", "anchors": ["src/structure.cpp: Structure::Cost", "src/structure.cpp: Structure::DeaggregatedCost", "src/structure.cpp: Structure::TotalCost"]}
{"id": "C51", "title": "Annual cost reports the two integrals or nothing", "statement": "The structure's annual cost has as mean and spread exactly the two integrals computed by the integrator; without components, or when an integration fails, it reports no number.", "quantifier": "For every integrator outcome, cost function and hazard derivative.", "why_tests_cant": "Quantifies over every behaviour of the integrator.", "anchors": ["src/structure.cpp: Structure::calc_AnnualCost"]}
{"id": "C52", "title": "A structure's IM follows replacements of its IM", "statement": "Whenever an IM used by a structure is replaced, the structure and all its component groups refer to the replacement, so further groups on the new IM are accepted. (Fails: an emptied structure keeps following the IM of its former groups; a replaced component group is not checked for its IM.)", "quantifier": "For every history of additions, removals and replacements.", "why_tests_cant": "Quantifies over unbounded histories.", "anchors": ["src/structure.cpp: Structure::AddCompGroup", "src/structure.cpp: Structure::RemoveCompGroup", "src/replaceable.h: Replaceable::replace"]}
{"id": "C53", "title": "Discretisation error of a successful integral is bounded", "statement": "A successful integral of an integrand whose transform is six times continuously differentiable, with sixth derivative at most M on the bracket, differs from the exact integral over the bracket by at most M/60 times the sum of the seventh powers of the widths of the intervals used; if the integrand is visible at 0 or 1 this bounds the distance to the integral over [0, infinity).", "quantifier": "For every such integrand, tolerance, limits and search method.", "why_tests_cant": "A bound over a continuum of integrands and all adaptive subdivisions.", "anchors": ["src/maq.cpp: MAQ", "src/maq.cpp: quad"]}
{"id": "C54", "title": "Callbacks never run on destroyed objects", "statement": "However functions, IMs, EDPs, component groups and structures are created, replaced and dropped, a notification never reaches an object that has been destroyed. (Fails for structures, whose destructor leaves its callbacks registered, and for compound EDPs whose second demand function was replaced.)", "quantifier": "For every history of construction, replacement, change, query and destruction.", "why_tests_cant": "A dangling callback is undefined behaviour that may go unnoticed in any one run; the claim ranges over unbounded histories.", "anchors": ["src/replaceable.h: Replaceable", "src/structure.h: Structure::~Structure", "src/relationships.h: CompoundEDP::~CompoundEDP", "src/relationships.h: EDP::~EDP", "src/comp_group.cpp: CompGroup::~CompGroup"]}
{"id": "C55", "title": "The rate curve of a demand is a rate curve", "statement": "EDP::lambda(y) is, up to the error of the integration, the yearly rate of earthquakes after which the structure is lost or the demand is at least y; it does not increase with y, equals the rate of all earthquakes at y = 0, never falls below the rate of losing the structure and tends to it. CollapseRate and DemolitionRate add up to the rate of losing the structure. A failed integration gives NaN, never a number.", "quantifier": "For every hazard curve with a derivative, every demand function (plain or compound), every collapse and demolition distribution, every level y >= 0 and every integrator with a given error.", "why_tests_cant": "Tests compare a few points of a few curves with reference values; monotonicity and limits are statements about a continuum of levels and arbitrary hazard curves.", "anchors": ["src/relationships.cpp: EDP::calc_lambda", "src/relationships.cpp: IM::CollapseRate_calc", "src/relationships.cpp: IM::DemolitionRate_calc", "src/relationships.cpp: IM::pRepair", "src/maq.cpp: Integration::MAQ"]}
{"id": "C56", "title": "A compound demand is the larger of its two demands", "statement": "At every intensity a compound EDP behaves as whichever of its two demands has the larger mean, its mean is the larger of the two, and the probability of exceeding any level is the larger of the two probabilities. (The last clause holds for equal spreads and fails in general.)", "quantifier": "For all pairs of demand functions, intensities and levels.", "why_tests_cant": "The choice depends on the intensity through two arbitrary functions, and the failing cases need particular combinations of median and spread.", "anchors": ["src/relationships.h: CompoundEDP", "src/relationships.cpp: CompoundEDP::P_exceedence", "src/relationships.cpp: CompoundEDP::Mean", "src/relationships.cpp: CompoundEDP::Median"]}
{"id": "C57", "title": "The cost of a component group is the cost averaged over demand and hazard", "statement": "At an intensity the expected cost of a group is the mean of the cost over the distribution of the demand; its spread gives the variance of the law of total variance; the annual cost is the expected cost integrated against the hazard, inner and outer integration errors adding up; a group without components costs nothing. A failed integration should be told from a zero cost (it is not).", "quantifier": "For every demand function, hazard curve, cost function with finite moments, count, and integrator with given errors.", "why_tests_cant": "Reference values check single groups to a few digits; they cannot tell a wrong variance formula from integration error, nor cover arbitrary loss functions.", "anchors": ["src/comp_group.cpp: CompGroup::E_cost_IM_calc", "src/comp_group.cpp: CompGroup::SD_ln_cost_IM_calc", "src/comp_group.cpp: CompGroup::CostDist_IM", "src/comp_group.cpp: CompGroup::E_annual_cost_calc"]}
{"id": "C59", "title": "A wrong value at the origin does little harm to an integral", "statement": "The callers of MAQ set the integrand to 0 at the origin instead of its limit. A successful integration of such an integrand differs from the integral of the smooth one by the error of the rule plus at most 7/90 of the width of the last interval times the error of the value at the origin, and the accuracy test bounds that width.", "quantifier": "For all integrands smooth apart from the origin, all tolerances, limits and search methods.", "why_tests_cant": "Which intervals are used depends on the integrand; a test sees one subdivision.", "anchors": ["src/maq.cpp: Integration::MAQ", "src/relationships.cpp: EDP::calc_lambda", "src/comp_group.cpp: CompGroup::E_cost_IM_calc"]}
{"id": "C60", "title": "Damage states are reached when demand exceeds capacity", "statement": "pDS_IM is the probability that a log-normal capacity is below an independent log-normal demand, which is the standard normal distribution function at the reliability index; the rates of the damage states are these probabilities integrated against the hazard, at most the rate of all earthquakes, and smaller for larger capacities of the same spread.", "quantifier": "For every demand function, hazard curve, list of damage states and integrator with given errors.", "why_tests_cant": "The closed form is an identity between a product measure and a distribution function; tests check points of it through an approximate integrator.", "anchors": ["src/comp_group.cpp: CompGroup::pDS_IM_calc", "src/comp_group.cpp: CompGroup::pDS_IM", "src/comp_group.cpp: CompGroup::calc_Rate"]}
{"id": "C61", "title": "The delay of a component group is the delay averaged over demand", "statement": "At an intensity the expected delay is the mean of the delay over the demand, and expected delay and spread together describe a distribution with the variance of the law of total variance. (Fails for more than one component: the mean is divided by the count but the standard deviation is not.)", "quantifier": "For every demand function, delay function with finite moments, count and intensity.", "why_tests_cant": "The error is invisible for groups of one component and looks like a plausible spread otherwise.", "anchors": ["src/comp_group.cpp: CompGroup::E_delay_IM_calc", "src/comp_group.cpp: CompGroup::SD_ln_delay_IM_calc"]}
{"id": "C58", "title": "Cached calculations that use other cached values neither deadlock nor go wrong", "statement": "Annual cost is computed from the costs of the groups, these from loss distributions, these from loss functions, each behind its own cache and on the way in teams of threads. Between two changes of the model, whatever threads query at the same time: every answer is the one the calculations give without caches and threads, nothing is calculated twice for the same argument, no cache detects a duplicate or misuses a lock, and all queries are answered after a number of steps independent of the schedule. The program is only terminated when a query ends with an exception anyway.", "quantifier": "For every number of threads, every set of concurrent queries (including ones that fork), every interleaving of the statements of the caches, every assignment of blocks to threads, every number of structures, groups, demands and loss functions sharing each other, and all calculations that make only the calls found in the source.", "why_tests_cant": "Deadlocks between nested locks need particular interleavings of several threads inside different caches; a test run exercises one schedule.", "anchors": ["src/caching.h: CachedFunction::operator()", "src/caching.h: CachedValue::operator()", "src/comp_group.cpp: CompGroup::CostDist_IM", "src/comp_group.cpp: CompGroup::SD_ln_cost_IM_calc", "src/structure.cpp: Structure::CostNC", "src/structure.cpp: Structure::calc_AnnualCost"]}
{"id": "C62", "title": "A recorder prints the table asked for", "statement": "A recorder prints a line of headings, then one line for each argument, in order, with the argument and the statistic, probability or rate that the language reference promises for each column. (Fails for edpim without columns or with probabilities, chosen columns of detfn, edprate, dsedp and dsim, other statistics of a group's costs, deagg, lossds and integer arguments.)", "quantifier": "For every kind of recorder, object, list of columns and list of arguments to which the reference gives a meaning.", "why_tests_cant": "Kinds, columns and arguments multiply to more combinations than tests run; a wrong column looks like a plausible number under a right heading.", "anchors": ["src/pyslat.py: recorder.generate_output", "src/pyslat.py: recorder.__init__", "src/pyslat.py: MakeRecorder", "slat-lang.org: Recorders"]}
{"id": "C63", "title": "A recorder of an undefined object fails instead of printing values", "statement": "A recorder made for an identifier that is not defined raises an exception before any value is printed. (Fails with a probability as column: placeholders are printed for each argument and nothing is raised.)", "quantifier": "For every kind of recorder, columns, arguments and options.", "why_tests_cant": "Needs every kind of recorder combined with a missing object and every list of columns.", "anchors": ["src/pyslat.py: recorder.generate_output", "src/SlatInterpreter.py: exitRecorder_command"]}
{"id": "C64", "title": "Recorded deaggregated costs add up to the cost of the structure", "statement": "The costs by demand and by fragility function have one block of columns per name, in alphabetical order; the mean of a block is the sum of the means of its groups, and the means of a line add up to the sum over all groups. The costs by fate add up to the mean of the totalcost recorder. (Fails for unnamed fragility functions, and for the columns mean_ln_x and median_x.)", "quantifier": "For every structure, set of groups sharing demands and fragility functions, columns and intensities.", "why_tests_cant": "Whether the parts add up depends on how groups share names and addresses; a lost category still gives a well-formed table.", "anchors": ["src/pyslat.py: StructcostRecorder.generate_output", "src/pyslatcore.cpp: Structure::ComponentsByEDP", "src/pyslatcore.cpp: Structure::ComponentsByFragility"]}
{"id": "C65", "title": "Annual costs, present values, densities and rates are recorded as computed", "statement": "The recorders of annual cost, present value, density, damage state rates and collapse rates print the library's values under their headings; a normalised density is in proportion to the density, nowhere above 1 and 1 somewhere. (Fails for probabilities as columns of the annual cost, for years that are not integers, for a density that is zero at all arguments, and for headings of more than six characters.)", "quantifier": "For every structure, group, intensity measure, column list, discount rate, list of years and arguments.", "why_tests_cant": "A repeated value in a column or a wrong divisor is only visible against an independent value for every list of columns and arguments.", "anchors": ["src/pyslat.py: StructcostRecorder.generate_output", "src/pyslat.py: PdfRecorder.generate_output", "src/pyslat.py: CollRateRecorder.generate_output", "src/pyslat.py: recorder.generate_output"]}
{"id": "C66", "title": "The rate of exceeding a cost is a rate curve with the annual cost under it", "statement": "lambda_cost at c is the rate of earthquakes after which the group costs at least c, the cost at an intensity being log-normal with the mean and variance that demand and cost functions give it. The curve starts at the rate of all earthquakes, never increases, tends to zero, and the area under it is E_annual_cost.", "quantifier": "For every group with components, demand, hazard curve, cost function with integrable mean and variance, and cost c \u2265 0.", "why_tests_cant": "The two results come from different integrals; a test compares a few numbers and cannot compare a whole curve with an integral.", "anchors": ["src/comp_group.cpp: CompGroup::lambda_cost_calc", "src/comp_group.cpp: CompGroup::E_annual_cost_calc", "src/comp_group.cpp: CompGroup::CostDist_IM"]}
{"id": "C67", "title": "Costs agree with the damage-state probabilities and rates reported", "statement": "The expected cost of a group at an intensity is the number of components times the adjustment factor times the sum over the damage states of the unit cost times the probability that this state but not the next is reached, with the probabilities pDS_IM reports; the annual cost is the same sum with the rates Rate reports. (Fails for damage states of different dispersions.)", "quantifier": "For every group, demand, hazard curve, number of damage states, simple or two-level unit costs, count and adjustment factor.", "why_tests_cant": "Relates two independently computed outputs for all inputs; a test has no reference value for either.", "anchors": ["src/comp_group.cpp: CompGroup::E_annual_cost_calc", "src/comp_group.cpp: CompGroup::calc_Rate", "src/comp_group.cpp: CompGroup::pDS_IM", "src/fragility.cpp: FragilityFn::pHighest", "src/loss_functions.cpp: LossFn::CalculateLoss"]}
{"id": "C68", "title": "Ranges of arguments contain the values they describe", "statement": "start:step:end gives start, start + step, \u2026 up to and including the end, when the end is a whole number of steps away, in spite of rounding; --linear n gives n values in equal steps including both ends; --log n gives n values in equal ratios including both ends; the years of a present value are those from the first on in equal steps below the last. (Fails for the order start:end:step of the reference manual, for downward linear ranges, for ranges of one value, and the last year is left out.)", "quantifier": "For every start, end, step, count and every rounding of sums with an error small against the step.", "why_tests_cant": "Whether the last value is lost depends on accumulated rounding for every count and step.", "anchors": ["src/pyslat.py: frange", "src/pyslat.py: linrange", "src/pyslat.py: logrange", "src/SlatInterpreter.py: exitFloat_array", "src/SlatInterpreter.py: exitStructcost_opts"]}
{"id": "C69", "title": "A name refers to its last definition, everywhere", "statement": "When an identifier is defined again, every object defined with that name uses the new definition, directly or through other names, and results already computed are computed anew; an EDP or component group reports what a script with only the last definitions reports. A structure consists of the groups named when it was filled, as now defined. A definition that uses an unknown name is refused and changes nothing. (Fails for redefined functions, for names used in a definition after they were redefined, and for redefined structures, where a callback runs on a destroyed object; AddCompGroup raises after adding a group on a redefined intensity measure.)", "quantifier": "For every script of definitions, redefinitions, structures, queries and destructions of unused objects that uses redefined names only where they were used before.", "why_tests_cant": "Depends on all orders of definitions and redefinitions, and on which cached results exist at each of them.", "anchors": ["src/pyslat.py: detfn.__init__", "src/pyslat.py: im.__init__", "src/pyslat.py: edp.__init__", "src/pyslat.py: fragfn.__init__", "src/pyslat.py: lossfn.__init__", "src/pyslat.py: compgroup.__init__", "src/pyslat.py: structure.AddCompGroup", "src/replaceable.h: replace"]}
{"id": "C70", "title": "A function or distribution is what its parameters say, or it is refused", "statement": "A log-normal distribution made from a location and a spread is the only log-normal law of which these are the mean (median, logarithmic mean) and standard deviation (logarithmic standard deviation); fragility and loss functions made from lists of such numbers have the probabilities and mean losses of these laws; a deterministic function takes the values of the documented formula or of its table; other parameters are refused. (Fails for unsupported combinations of parameters, which give NaN; for damage states without cost; for two-level costs, documented as medians but used as means; for groups without delay function; for parameter lists of wrong length; for the order of the hyperbolic law's parameters, which is the reverse of the documented one; and interpolated functions cannot be defined in the language.)", "quantifier": "For every kind and number of parameters, damage states, probabilities, counts and arguments.", "why_tests_cant": "Speaks about laws with given moments for all numbers, and about which of infinitely many parameter lists are accepted.", "anchors": ["src/pyslatcore.cpp: MakeLogNormalDist", "src/pyslatcore.cpp: factory2", "src/pyslatcore.cpp: factory3", "src/pyslat.py: detfn.__init__", "src/pyslat.py: fragfn_user.__init__", "src/pyslat.py: simplelossfn.__init__", "src/pyslat.py: bilevellossfn.__init__", "src/pyslat.py: MakeCompGroup", "src/SlatInterpreter.py: exitDetfn_command"]}
{"id": "C71", "title": "An imported function fits the rows of its file", "statement": "A demand function imported from a file of intensities and results is, at each intensity of the file, the log-normal law whose median is the geometric mean of the results that are not zero and whose dispersion is the sample standard deviation of their logarithms; between intensities (and from the origin) both are interpolated linearly and beyond the last row they stay constant. The order of the results and the number of zeros (collapses) do not matter; results in other units scale the median and leave the dispersion. An imported hazard curve passes through its rows and is a power law between them. (Fails for a row with fewer than two results that are not zero, which is accepted but makes the dispersion NaN from the preceding row on; a file with one row is refused.)", "quantifier": "For every file of numbers: all numbers of rows and columns, all values, and every intensity at which the function is evaluated.", "why_tests_cant": "Tests read one sample file; the fit, its invariances and the damage done by one bad row are claims about all files and all intensities.", "anchors": ["src/pyslat.py: ImportProbFn", "src/pyslat.py: ImportIMFn", "src/functions.cpp: LinearInterpolatedFn::Evaluate", "src/functions.cpp: LogNormalFn::DistributionAt"]}
{"id": "C72", "title": "Results belong to the integration settings in force", "statement": "After the tolerance, limits or method of integration are changed, every result is reported as calculated with the new settings (reference manual: changing the integration parameters will invalidate the cache). Proved when nothing was calculated before the change, or when Clear_Caches, which Python cannot call, follows it. (Fails otherwise: a result that has been calculated is reported unchanged whatever the settings are made.)", "quantifier": "For every history of object operations, queries, changes of settings and cache clearings, every calculation depending on the settings, every object and argument.", "why_tests_cant": "A test compares one result before and after; which of the nested cached results keep the old settings depends on the whole history.", "anchors": ["src/maq.cpp: IntegrationSettings::Set_Tolerance", "src/maq.cpp: IntegrationSettings::Set_Integration_Method", "src/pyslatcore.cpp: IntegrationSettings", "src/caching.cpp: Clear_Caches", "src/SlatInterpreter.py: exitIntegration_command"]}
{"id": "C73", "title": "Each recorder's output is found in its file", "statement": "A file name without a slash is in the output directory and gets the extension .csv if it has none; what a file name stands for is stable, and two plain names stand for the same file only if they are equal or differ by the missing .csv. analyze runs each recorder once, in the order of first definition, with its last definition. Afterwards a file holds what the last recorder for it that does not append printed, followed by what later recorders appended, or the old contents followed by everything appended; other files are untouched, and recorders with separate files can be run again without changing anything. Not so for a recorder without a file (documented to print on the terminal): it ends the analysis, and later recorders do not run.", "quantifier": "For every list of definitions, all file names, directories, earlier file contents, and outputs of recorders.", "why_tests_cant": "Speaks about all strings as paths and all sequences of recorders sharing files.", "anchors": ["src/pyslat.py: full_output_path", "src/pyslat.py: full_input_path", "src/pyslat.py: set_output_directory", "src/pyslat.py: recorder.run", "src/pyslat.py: recorder.all", "src/SlatInterpreter.py: exitAnalyze_command", "src/SlatInterpreter.py: exitPrint_options"]}
{"id": "C74", "title": "Integration in machine arithmetic ends, stays in its domain, keeps signs and accumulates small errors", "statement": "The adaptive integration as executed with rounding, overflow and underflow: it ends with the evaluation counts of C30 whatever the operations return; for search limits up to 2^22 the integrand is evaluated only at arguments that are neither negative nor NaN; the integral of an integrand that is never negative is never reported negative (tolerance at most 1); and, where roundings have relative error u (no overflow or underflow), a finite integral is the extrapolated Simpson rule over tiles joining the ends of the bracket, with rounded midpoints and the computed values there, up to the relative error of 8 + 2n roundings for n tiles. Without rounding the results are those of the exact model.", "quantifier": "For every integrand, all settings within the limits stated, every arithmetic (termination) and every monotone rounding with the stated laws of IEEE formats (the rest).", "why_tests_cant": "Rounding affects every comparison in the adaptive subdivision; no finite set of runs covers all integrands, settings and rounding patterns.", "anchors": ["src/maq.cpp: MAQ", "src/maq.cpp: binary_subdivision", "src/maq.cpp: directed_search", "src/maq.cpp: quad", "src/maq.cpp: x_from_t"]}
{"id": "C75", "title": "Interpolated functions may be evaluated by several threads at once", "statement": "A vector query that evaluates an interpolated function in parallel (for instance lambda of an intensity measure with an interpolated hazard curve) returns at every position the value described by the table, for any team size and any interleaving; no evaluation reads outside the table; and an evaluation that overlaps with no other is right whatever happened before.", "quantifier": "for all tables (linear, and log-log with positive data), argument vectors, numbers of threads, interleavings of their accesses to the accelerator, earlier uses of the object, and builds of the GSL (index read again or kept in a register)", "why_tests_cant": "Tests would have to hit a window of a few instructions between two threads; whether the window exists depends on the compiler. A test with one thread never sees it.", "anchors": ["src/functions.cpp: LinearInterpolatedFn::Evaluate, LogLogInterpolatedFn::Evaluate", "src/functions.h: accel", "src/relationships.cpp: IM::lambda(vector), EDP::MeanLn(vector)"]}
{"id": "C76", "title": "Log messages are preceded by the calculations that enclose them", "statement": "The text in front of a message of a thread consists of the descriptions that this thread and the threads that started its teams have opened and not closed, grouped by nesting and oldest first, each with the separator of its level; calculations of other threads do not appear. Opening a description adds it at the end and closing it restores the text. Opening, closing and reading never access memory outside the vectors of the tree and never find an empty stack.", "quantifier": "for all histories of opening and closing descriptions, forming and joining teams by any number of threads, provided team sizes depend only on the nesting level and one-thread regions are innermost", "why_tests_cant": "The tree of contexts is shared by all threads and changed on every operation; wrong indexing shows only for particular sequences of team sizes and nestings.", "anchors": ["src/context.cpp: LockContext, PushText, PopText, GetText", "src/context.h: TempContext", "src/comp_group.cpp: CostDist_IM"]}
{"id": "C77", "title": "Sums, mixtures and total costs survive rounding", "statement": "As executed with rounding, AddDistributions, AddWeightedDistributions, Structure::Cost and Structure::TotalCost return parameters whose log-normal law has the mean and the mean square of the sum or mixture, up to a relative error that grows with the number of terms and the size of the parameters only; in double, at most a thousand costs with |mu| + sigma^2/2 up to 500 are added right to ten digits. The probabilities of repair, demolition and collapse add up to one within three roundings. Zero costs (mu = -inf) are included. (TotalCost: only when the mixture has some spread; otherwise it can be NaN. The variance of a nearly certain cost is not preserved, only the mean square.)", "quantifier": "for all lists of distributions with finite parameters or zero cost, all non-negative weights, and every machine whose operations, exp and log have a relative error of at most u and neither overflow nor underflow", "why_tests_cant": "Rounding errors depend on all bits of all inputs; a test compares a few sums with loose tolerances and cannot bound the error, and the NaN appears only for particular bit patterns.", "anchors": ["src/lognormaldist.cpp: AddDistributions, AddWeightedDistributions, get_mean_X, get_sigma_X, LogNormalDist_from_mean_X_and_sigma_X", "src/structure.cpp: Structure::Cost, Structure::TotalCost", "src/relationships.h: IM::pRepair, IM::pDemolition"]}
{"id": "C78", "title": "Derivatives of hazard and exceedance curves", "statement": "The derivative of a hazard curve, of an interpolated function or of an exceedance probability used in every rate is the derivative of the curve, to within K/288 * 10^-32 for a fifth derivative bounded by K: exactly the slope inside a segment of a table (the mean of the two slopes at a point of the table, half the slope at its ends, 0 beyond), within an explicit bound for a power law; near 0, where the curve is NaN at negative arguments, and at the right end of a domain, the one-sided derivative to within 4/5 K * 10^-24. In machine arithmetic the error is bounded by the errors of the values divided by the step of 10^-8, for arguments up to 2*10^7. An error of the derivative enters a rate of exceedance at most with its integral, and the expected cost of a group at most with the integral of cost times error. (Above 2^27 the derivative of every function is 0, and demands of that size cost nothing.)", "quantifier": "for all functions with the stated number of derivatives, all tables, all power laws, all arguments in the ranges stated, and every machine with relative error at most 2^-53", "why_tests_cant": "A test differentiates a few functions at a few points; neither the adaptive choice of the step nor the fallbacks nor the loss of digits for large arguments can be covered.", "anchors": ["src/functions.cpp: DeterministicFn::DerivativeAt", "src/relationships.cpp: IM::DerivativeAt, EDP::DerivativeAt", "src/comp_group.cpp: E_cost_IM_calc", "src/relationships.cpp: calc_lambda"]}
{"id": "C79", "title": "Rate and probability curves survive rounding", "statement": "With every operation rounded, overflowing or underflowing as in IEEE binary64, the curves keep the shape that the rate calculations rely on. A hyperbolic hazard curve is finite, between 0 and its asymptote, never rises, is the asymptote at 0 and 0 from the other asymptote on, and has a bounded relative error. A power law with positive coefficients never falls and is never negative. An interpolated curve meets the left point of every interval exactly, is monotone in the direction of the table on every interval, is never NaN, never negative for a table that is not, is constant outside, and has an error of about seven units of rounding; if consecutive ordinates are within a factor of two it meets every point and is monotone everywhere. A log-log curve is non-negative and monotone on every interval. Log-normal probabilities lie in [0,1], are monotone and have a bounded error; the probabilities of the damage states lie in [0,1], decrease with the state for equal dispersions and increasing medians, and those of being in the states add up to that of being damaged to within one unit of rounding.", "quantifier": "for all parameters, tables of any length, distributions, lists of damage states and arguments that are numbers of the format, and every platform whose rounding is monotone and whose library functions are monotone (binary64 with correctly rounded functions is proved to be one)", "why_tests_cant": "Whether a rounded curve is monotone depends on the last bits of all its values; a test compares a few values with tolerances that hide a reversal.", "anchors": ["src/functions.cpp: NonLinearHyperbolicLaw::Evaluate, PowerLawParametricCurve::Evaluate, LinearInterpolatedFn::Evaluate, LogLogInterpolatedFn::Evaluate, LogLogInterpolatedFn::LogLogInterpolatedFn", "src/lognormaldist.cpp: p_at_least, p_at_most", "src/fragility.cpp: FragilityFn::pExceeded, FragilityFn::pHighest"]}
{"id": "C80", "title": "Discounted costs survive rounding", "statement": "With every operation rounded as in IEEE binary64, for a positive discount rate and a positive mean annual cost E_cost(years, rate) is 0 for no years, never negative or NaN, never falls with the number of years and never exceeds annual cost / rate as the machine computes it; a list of years in order gives costs in order. Its relative error is at most four units of rounding divided by 1 - exp(-rate * years), plus four.", "quantifier": "for all positive rates and annual costs, all numbers of years, every platform with monotone rounding and monotone exp (binary64 is proved to be one)", "why_tests_cant": "The cancellation in 1 - exp(-rate * years) shows only for small rates; a test compares a few usual rates with a tolerance.", "anchors": ["src/structure.cpp: Structure::E_cost(int, double), Structure::E_cost(std::vector<int>, double)"]}
{"id": "C81", "title": "Log messages reach the destinations set", "statement": "After import pyslat and any calls of SetLogFile and LogToStdErr, a message is never lost. The messages logged since the last SetLogFile(p) are exactly the contents of file p, in order and once each, whatever is done with standard error, and no other file changes. Standard error receives each message once as long as it has not been switched off, and none after it has been switched off, unless it is switched on again. Standard output receives a message only if there is no other destination. The log command of a script with --nostderr and a file sends all further messages to that file only.", "quantifier": "for all histories of calls of any length, all paths, all messages and all initial contents of files", "why_tests_cant": "Tests try one or two settings; which sinks are registered depends on the whole history of calls through two static pointers.", "anchors": ["src/pyslatcore.cpp: Initialise, SetLogFile, LogToStdErr", "src/pyslat.py: LogToStdErr, SetLogFile", "src/SlatInterpreter.py: exitLog_command"]}
{"id": "C82", "title": "Which queries return", "statement": "A query on an intensity measure, EDP, component group or structure either returns or ends the process (exception, null pointer, exhausted stack, undefined arithmetic), and which of the two depends on the parts of the model only, not on the numbers. An intensity measure answers everything. An EDP answers everything if its functions give the mean or the standard deviation of the logarithm, and nothing otherwise. Costs and delays at a demand are answered exactly if the loss function, if any, has one distribution per damage state; at an intensity, per year and as a rate exactly if in addition the EDP is sound or the count is not positive. Damage probabilities need the EDP only. A structure answers exactly if all its groups do; total cost, separated costs and density also need an intensity measure. After any sequence of additions and removals of complete groups with one intensity measure all queries return, except these three while nothing was ever added. A group can be printed exactly if it has both loss functions.", "quantifier": "for all objects, functions, distributions, counts, adjustment factors and arguments, all sequences of additions and removals, and every integration and differentiation routine that evaluates its function at least once away from 0", "why_tests_cant": "A query that does not return ends the test program; the conditions combine five kinds of object, optional parts, and sizes that nothing compares when the model is built.", "anchors": ["src/comp_group.cpp: CompGroup", "src/structure.cpp: Structure", "src/relationships.cpp: IM, EDP, CompoundEDP", "src/loss_functions.cpp: CalculateLoss, CalculateUnadjustedLoss", "src/functions.cpp: LogNormalFn::LogNormalFn"]}
{"id": "C83", "title": "Scripts are cut into the tokens they write", "statement": "For every text given to SlatInterpreter.py the lexer comes to an end without an exception, and the tokens, the blanks and comments skipped and the characters dropped, put one after the other, are the text: at each place the longest match, and among equally long ones the first rule of slatLexer.g4. A row of keywords, names, numbers, paths, strings, punctuation and Python expressions written with any blanks, tabs, line ends and comments between them, or none where the characters do not run together, is read back as exactly that row, so layout and comments never matter. The text between $( and its matching ) reaches the interpreter unchanged. Exactly described exceptions: .5 is a name, not a number; loglog is a keyword only after a blank, and a name that starts with loglog is cut in two after one; a path cannot contain a hyphen; a parenthesis in a Python string counts as a parenthesis; a character that starts no token is dropped with a message and lexing goes on.", "quantifier": "for all texts, and for all rows of tokens of any length with any layout", "why_tests_cant": "The rules interact (longest match, order in the file, modes); a test tries a few scripts and cannot show that no other layout or name changes the tokens.", "anchors": ["src/slatLexer.g4", "src/SlatInterpreter.py: main"]}
{"id": "C84", "title": "String literals mean what is written", "statement": "A text put between quotes of either kind, with a backslash before each such quote and each backslash as documented, is one STRING token whatever follows it, and the interpreter gets back exactly the text.", "quantifier": "for all texts and both kinds of quotes", "why_tests_cant": "The four replacements interact with each other and with the stripping of quotes; a test tries a few literals.", "anchors": ["src/slatLexer.g4: STRING, SQ_ESCAPED_CHAR, DQ_ESCAPED_CHAR", "src/SlatInterpreter.py: preprocess_string", "slat-lang.org"]}
{"id": "C85", "title": "Scripts are read as the commands they write", "statement": "The grammar has one reading of every row of tokens. Every command whose names, numbers, strings, paths and expressions can be written can be written as documented in slatParser.g4, with any layout, any spelling of its numbers, --mu and --sd or --db and --stdfunc in either order; any text that writes a row of commands, each with its semicolon, is read as exactly these commands in this order, with exactly these values, and the handlers are called for them in this order. Conversely an accepted text has exactly the words of the commands it is read as, and these have the shape of the language. A script is accepted exactly if each piece up to a semicolon is a command and nothing follows the last; otherwise no command is executed, not even those before the mistake. Exactly described exceptions to what users may expect: some numbers must not be integers, several forms of the manual are not accepted, words of the vocabulary are not names.", "quantifier": "for all texts, all rows of tokens, all commands with lists and dictionaries of any size and depth, and all ways to write them", "why_tests_cant": "The rules interact (optional parts, lists, nested dictionaries); a test tries a few scripts and cannot show that no other script is misread.", "anchors": ["src/slatParser.g4", "src/SlatInterpreter.py: main", "slat-lang.org", "parser/test_cases"]}
{"id": "C86", "title": "Queries from Python are answered by the library", "statement": "A query of the Python classes (detfn, probfn, im, edp, fragfn, compgroup, structure) returns the answer of the library function its name stands for, as a number, as the list of the answers for a list of arguments in their order, as the numbers of the damage states, or as a distribution of the interface whose statistics carry the documented names. Settings reach the library and are read back. A wrong argument raises a Python exception and does not reach the library. The constants that name the kinds of parameters keep their meaning: a function made with MEDIAN_X reports its value as the median, and so on.", "quantifier": "for all objects, all methods of the interface, all arguments and lists of arguments of any length, and all behaviours of the library", "why_tests_cant": "The methods are written out one by one in three places (pyslat.py, pyslatcore.i, pyslatcore.cpp); a test calls some of them with some arguments and misses a wrong or missing name.", "anchors": ["src/pyslat.py: detfn, probfn, im, edp, fragfn, compgroup, structure, lognormaldist", "src/pyslatcore.i", "src/pyslatcore.cpp", "src/pyslatcore.h"]}
{"id": "C87", "title": "A script leaves the tables it orders", "statement": "If the interpreter reaches the end of a script given as text, the file of every recorder that does not append and has its file to itself, in the output directory set last before an analyze command, holds the table that its command ordered and nothing else: the headings, then one line for each argument in order, with the answers of the object that had the name when the recorder was made, as that object is when analyze runs. What was in the file before does not matter, and neither does any other command of the script. A later analyze after a change of the output directory leaves the earlier file as it is and writes another. In general every file holds what the commands write to it one after the other: at each analyze the recorders, in the order in which their names were first used and as the last command for each name says, and print commands at once, each starting the file anew or appending.", "quantifier": "for all texts, all scripts of any length, all behaviours of the library, all initial contents of files and all machines (rounding, which files can be opened)", "why_tests_cant": "The statement spans lexer, parser, listener, recorder objects, ranges of arguments and files; a test runs a few scripts and cannot show that no combination of commands or names disturbs a table.", "anchors": ["src/SlatInterpreter.py: main, exitRecorder_command, exitAnalyze_command", "src/pyslat.py: recorder", "src/slatLexer.g4", "src/slatParser.g4"]}
{"id": "C88", "title": "The numbers in the files of a script are those of its formulas", "statement": "For scripts with deterministic and probabilistic functions, intensity measures, collapse and demolition, demands, component groups, structures and recorders: a script in which names are defined before they are used and the files can be opened runs to its end; then the file of a detfn recorder holds the values of the power law or hyperbolic function written in the script, that of an imrate recorder the hazard curve of the intensity measure, that of a collapse recorder the probabilities of demolition and collapse from the log-normal distributions set last anywhere in the script (no demolition or collapse if none was set), and that of an edpim recorder the mean and the dispersion of the demand at every intensity. A later definition of a name does not change what was made from the earlier one.", "quantifier": "for all scripts of any length, all numbers, all positive arguments", "why_tests_cant": "The numbers pass through the parser, Python objects, SWIG, factories and C++ classes, any of which can exchange, drop or reinterpret one; tests compare a few printed values.", "anchors": ["src/SlatInterpreter.py", "src/pyslat.py: detfn, probfn, im, edp, recorder", "src/pyslatcore.cpp: factory, MakeLogNormalDist", "src/functions.cpp: PowerLawFn, HyperbolicFn, LogNormalFn", "src/relationships.cpp: IM, EDP", "src/lognormaldist.cpp", "slat-lang.org"]}
{"id": "C89", "title": "What print writes stays in its file", "statement": "The print command takes effect right away, in the order of the script: if the interpreter reaches the end of a script, a file that only print commands write to (and no recorder that is run) holds the texts of its messages and titles in their order, starting from the last print that does not append, or from what the file held before if all of them append. The title is all title commands so far, each on its own line.", "quantifier": "for all texts, all scripts of any length, all behaviours of the library, all initial contents of files", "why_tests_cant": "A test prints a few messages; that no other command between them changes the file, the order or the titles holds for all scripts only by proof.", "anchors": ["src/SlatInterpreter.py: exitPrint_command, exitTitle_command", "slat-lang.org"]}
{"id": "C90", "title": "Damage and losses in the files of a script are those of its numbers", "statement": "For scripts that also define fragility functions, loss functions and component groups: such a script runs to its end if names are defined before they are used (once), the onsets of damage states come in increasing order, loss functions have as many states as the fragility function they are used with and the files can be opened. Then the file of a dsedp recorder holds, for every demand, the probabilities that the damage states written in the script are reached and the expected number of states reached; the file of a costedp or delayedp recorder holds, in the columns that were chosen, the mean, which is the number of components times the adjustment factor times the expected loss of one component, each damage state counting with the probability that it is the worst one reached, and the log-spread, which is that of the lognormal loss with this mean and the mean square of the mixture; losses with two limits are interpolated between them by the number of components. Cost factor and delay factor, cost and delay function are not exchanged, and a factor that is left out is one.", "quantifier": "for all scripts of any length, all numbers, all positive demands at which fragility curves do not cross", "why_tests_cant": "The numbers pass through two notations, positional arguments, two loss functions and two factors of the same types; tests with one group cannot show that none is exchanged or dropped in any script.", "anchors": ["src/SlatInterpreter.py: exitFragfn_command, exitLossfn_command, exitCompgroup_command", "src/pyslat.py: fragfn, lossfn, compgroup, recorder", "src/pyslatcore.cpp: MakeFragilityFn, MakeSimpleLossFn, MakeBiLevelLossFn, MakeCompGroup", "src/fragility.cpp", "src/loss_functions.cpp", "src/comp_group.cpp: cost_EDP_dist, delay_EDP_dist", "slat-lang.org"]}
{"id": "C91", "title": "Rates, damage and losses at an intensity in the files are the integrals they are meant to be", "statement": "For a script whose numbers are written out, the file of an edprate recorder holds, for each demand, the integral over all intensities of the rate at which the demand is exceeded or the structure is lost, by the hazard curve, the demand and the collapse and demolition distributions that the script defines; the file of a collrate recorder the rates of demolition and collapse; the file of a dsim recorder the probability that the demand at an intensity reaches each damage state, in closed form; the file of a dsrate recorder the rate at which each damage state is reached; the files of costim and delayim recorders the integral of the expected loss over the demands at the intensity, and the log-spread that belongs to it and to the integral of the mean square; the file of a costrate recorder the rate at which a lognormal cost with these moments exceeds each amount. Each number is off by no more than the integrator is. The formula of the document for edprate leaves out that the structure may be lost, and gives smaller rates than the file.", "quantifier": "for all scripts of any length, all numbers, all hazard curves with a slope, all groups whose fragility curves do not cross, every integrator that answers within an error", "why_tests_cant": "A file shows one number per line and the integral is not known otherwise; which of several definitions and distributions entered it, and whether a factor was left out, cannot be told from test runs.", "anchors": ["src/SlatInterpreter.py: exitRecorder_command, exitCollapse_command, exitDemolition_command", "src/pyslat.py: recorder, CollRateRecorder", "src/relationships.cpp: EDP::calc_lambda, EDP::P_exceedence, IM::CollapseRate_calc, IM::DemolitionRate_calc", "src/comp_group.cpp: pDS_IM_calc, E_cost_IM_calc, E_delay_IM_calc, SD_ln_cost_IM_calc, SD_ln_delay_IM_calc, Rate, lambda_cost", "slat-lang.org: edprate, dsim, costim"]}
{"id": "C92", "title": "Costs of a structure in the files are those the script describes", "statement": "For a script that defines a structure from component groups and sets the costs of rebuilding and demolition, the file of a totalcost recorder holds, for each intensity, the mean cost and its log-spread: with the probabilities of the three fates at that intensity the structure is repaired, at the sum of the costs of its groups, which do not depend on each other, or demolished, or rebuilt after a collapse. The file of a structcost --by_fate recorder holds the three shares of the mean. Those of structcost --by_edp and --by_frag hold, for each demand or fragility function of its groups in alphabetical order, under the name the script gives it, the mean cost of repairing the groups with it and the log-spread of that cost; the means of a line add up to the mean cost of repair. The file of structcost --annual holds what is asked for of the annual cost: its mean is the integral of the mean cost over all intensities, weighted with the slope of the hazard curve. The file of structcost --npv holds, for each year from the first on in steps before the last, this annual mean integrated over the years with continuous discounting. The file of a pdf recorder holds the mean cost times the slope of the hazard curve, with --normalise divided by the greatest of them in the file. Costs and distributions that are set after the recorder but before the analysis count. Each number is off by no more than what the integrator is off by, per group.", "quantifier": "for all scripts of any length, all structures with any number of groups, all numbers, all hazard curves with a slope, every integrator that answers within an error", "why_tests_cant": "A total is one number made of dozens of definitions; which of them entered it with which weight, and whether two were exchanged, cannot be told from a few runs.", "anchors": ["src/SlatInterpreter.py: exitStructure_command, exitRebcost_command, exitDemcost_command, exitRecorder_command", "src/pyslat.py: structure, StructcostRecorder, PdfRecorder", "src/structure.cpp: TotalCost, CostsByFate, calc_AnnualCost, E_cost, pdf", "src/lognormaldist.cpp: AddDistributions, AddWeightedDistributions", "src/comp_group.cpp: E_cost_IM, SD_ln_cost_IM"]}
{"id": "C93", "title": "Printing a definition tells what it was made from", "statement": "If a script prints a definition to a file, the text in the file names the kind and the name of the definition and all that the last definition of that name before the print command was made from, as the script wrote it: the functions and meanings of a probabilistic function, the function of an intensity measure, the intensity measure and function of a demand, the numbers and options of a fragility or loss function, the demand, fragility function, cost and delay functions, count and adjustments of a component group. A name that is not defined prints None.", "quantifier": "for all scripts of any length, all names and numbers, all behaviours of the library, all initial contents of files, whatever texts Python gives to numbers, lists and constants", "why_tests_cant": "A test prints a few objects; names exchanged between the arguments of a constructor, an earlier definition that shows through or a text that drops an argument show only for the right script.", "anchors": ["src/SlatInterpreter.py: exitPrint_command", "src/pyslat.py: detfn, probfn, im, edp, fragfn_db, fragfn_user, simplelossfn, bilevellossfn, compgroup (__str__)"]}
{"id": "C94", "title": "Writing out the variables and expressions of a script changes nothing", "statement": "If in a script the variables and Python expressions that stand for numbers, for lists of numbers and for the arguments of recorders are replaced by what they stand for at that place, and the set commands are left out, the script does the same: it leaves the same files and definitions, and if it stops it stops at the same command.", "quantifier": "for all scripts of any length, all values of variables, all behaviours of the library and of Python, all initial states", "why_tests_cant": "A test gives a few numbers by variables; a value taken from the wrong place of the stack, from an earlier set command or from another variable shows only for the right combination of commands.", "anchors": ["src/SlatInterpreter.py: exitSet_command, exitVar_ref, exitPython_script, exitNumerical_scalar, exitScalar2, exitRecorder_at, exitIntegration_command", "src/slatParser.g4: set_command, var_ref, numerical_scalar"]}
{"id": "C95", "title": "A session reports what its definitions say at the time, although rates and costs are remembered", "statement": "The program keeps the rates of an intensity measure and of a demand and the annual cost of a structure once they have been computed. In a script with several analyses, and with definitions, groups and distributions added in between, every file is what it would be if everything were computed again at each analysis, and the script ends in the same way. The exceptions are a probability of collapse that is set after an analysis that reported the rates of the intensity measure, and a cost of rebuilding or demolition that is set after an analysis that reported the annual cost of the structure: then the old rate of demolition or the old annual cost is reported.", "quantifier": "for all scripts of any length with any number of analyses, all numerical routines, all initial contents of files", "why_tests_cant": "What is remembered shows only in the second report after the right change in between; there are as many combinations of reports and changes as scripts, and each remembered value has its own way of being forgotten.", "anchors": ["src/caching.h: CachedValue, CachedFunction", "src/relationships.h: IM::SetCollapse, IM::SetDemolition", "src/relationships.cpp: EDP::EDP", "src/structure.cpp: Structure::AddCompGroup", "src/structure.h: setRebuildCost, setDemolitionCost", "src/SlatInterpreter.py: exitAnalyze_command"]}
{"id": "C96", "title": "A cost that is not given is reported as missing, not left out", "statement": "If a structure can collapse or be demolished and no cost is given for that, the total cost, the annual cost and the discounted costs of the structure and the density of its cost are written as not a number; they are never the sum of the other parts; a normalised density stops the session. In a report by fate the cost of repair is a number, and those of demolition and of rebuilding are numbers exactly if they are given.", "quantifier": "for all scripts of any length, all structures, groups and distributions, all intensities and years, for total costs all integrators", "why_tests_cant": "A test of a structure without a cost shows that one report is not a number; that no combination of fates, of groups that cost nothing and of failed integrations turns the missing part into a zero is a statement about all of them.", "anchors": ["src/structure.cpp: TotalCost, CostsByFate, calc_AnnualCost, E_cost", "src/lognormaldist.cpp: LogNormalDist, ScaleDistributionByProbability", "src/maq.cpp: MAQ", "src/SlatInterpreter.py: exitRebuildcost_command, exitDemolitioncost_command"]}
{"id": "C97", "title": "The report on the integrations says what was set and what was integrated since the last reset", "statement": "Whatever was set, refused, calculated, reset and reported before, the text of Format_Statistics has behind each heading the setting in force (the last one that was accepted, for the method also by its number, or the default) and the counts and totals of all integrations since the last reset, also of those that ran at the same time; a method that does not exist changes nothing, a report changes nothing. The largest numbers of evaluations are numbers that some integration had, and the largest if no two ran at the same time; otherwise they can be too small.", "quantifier": "for all programs of settings, calculations, resets and reports of any length, all numbers of integrations per calculation and all their interleavings", "why_tests_cant": "The report is read by people after long runs with many threads; a test can compare one report with one expected text, not say that no order of resets, settings and overlapping integrations puts a stale setting or a lost count behind a heading.", "anchors": ["src/maq.cpp: reset_statistics, get_statistics, format_statistics, MAQ", "src/maq.h: IntegrationStats, IntegrationSettings", "src/pyslatcore.cpp: Set_Integration_Method, reset_statistics, format_statistics", "src/pyslat.py: Set_Integration_Method, Reset_Statistics, Format_Statistics"]}
{"id": "C98", "title": "A definition that is refused leaves the names as they were", "statement": "When a constructor of the Python classes raises an exception, every name still stands for what it stood for, and no object has been replaced in the library. After any sequence of definitions, some of them refused, a name stands for the object of the last definition of its class under this name that returned, and the library was told to replace an object exactly by the next one that was made under its name. A definition is accepted if and only if it has everything it needs. (Fails for probabilistic functions of a wrong type, which are refused but defined; for fragility functions from the database, whose name can never be defined again and which cannot take the name of another one; a demand without a name is found under None.)", "quantifier": "for all states, all definitions of detfn, probfn, im, edp, fragfn, lossfn, compgroup and structure, all places at which they raise, and all histories of definitions that return or raise", "why_tests_cant": "Which statement raises depends on the arguments; what is left behind shows only in later definitions that use the name, in any order.", "anchors": ["src/pyslat.py: detfn.__init__, probfn.__init__, im.__init__, edp.__init__, fragfn._register, fragfn_db.__init__, fragfn_user.__init__, lossfn._register, compgroup.__init__, structure.__init__, lookup", "src/pyslatcore.cpp: FragilityFn::replace"]}
{"id": "C99", "title": "Demands and groups that differ in a parameter that is printed differently are described differently", "statement": "Two demand objects of the library are written to a stream with the same text exactly if their hazard curves, and the functions for the centre and for the spread of their demand, are of the same kinds and have parameters that are printed alike, in the same order. Parentheses are closed in the descriptions of functions and intensity measures. (Fails for the description of a demand, where one is never closed; the description does not say what the functions give, what is in a table, or that there is a second demand function.) Two component groups with loss functions for cost and delay, and names without a colon, have the same description exactly if their names are the same, their numbers of components are printed alike, their demands are described alike, and their fragility and loss functions are of the same kinds with distributions printed alike, state by state. (Fails for groups without a function of cost or delay, whose description is undefined behaviour; bi-level losses and adjustment factors are not told.)", "quantifier": "for all demands and groups, all functions and parameters, any number of states, all ways to print numbers without commas and parentheses", "why_tests_cant": "That no two different objects share a text, for nested functions and any parameters, is a statement about all pairs; a test compares a few texts with expected ones.", "anchors": ["src/functions.cpp: NonLinearHyperbolicLaw::ToString, PowerLawParametricCurve::ToString, LinearInterpolatedFn::ToString, LogLogInterpolatedFn::ToString, LogNormalFn::ToString", "src/relationships.cpp: IM::ToString, EDP::ToString", "src/relationships.h: CompoundEDP", "src/comp_group.cpp: operator<<", "src/fragility.cpp: operator<<", "src/loss_functions.cpp: LossFn::to_string, SimpleLossFn::to_string", "src/lognormaldist.cpp: operator<<"]}
{"id": "C100", "title": "Library objects are found under the names they have now", "statement": "Given the library object of a demand, a fragility function or a component group, lookup returns the Python object that was made with it if that is what its name stands for at the time, and None if its name has been defined again since or if it has none; it never returns another object. A demand without a name is found until another one without a name is defined. Different objects that are found have different names. (Fails with fragility functions from the database: then a search that has to pass one raises an exception, although the function looked for still has its name.)", "quantifier": "for all histories of definitions of all classes that return or raise, all library objects made in them, all orders of the dictionaries", "why_tests_cant": "Reports by demand and by fragility function find the headings of their columns in this way; whether the right name is found depends on all that was defined and redefined before, and on the order of a dictionary.", "anchors": ["src/pyslat.py: edp.lookup, fragfn.lookup, compgroup.lookup", "src/pyslatcore.cpp: EDP::AreSame, FragilityFn::AreSame, CompGroup::AreSame"]}
