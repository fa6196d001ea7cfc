# Formal model of CxModelling/sims-pars

Properties are listed in `properties.jsonl`; `MANIFEST.json` maps each one to the theorems that settle it.
This file says what is modelled, how each property is proved, what the trusted base is, and where the
code and the stated property disagree.

## Layout

* `lean/Verif/Py/*` - the fragment of Python the code relies on: exceptions as values (`Err`), insertion
  ordered `dict`s, IEEE-like extended numbers (`XR`), set operations on lists.
* `lean/Verif/Model/*` - the model, function by function. Each definition cites the file and lines it models
  and says where it simplifies.
* `lean/Verif/Spec/*` - small specifications (paths, reachability, topological orders, ...) that mention no
  model helper. Property theorems are stated with these.
* `lean/Verif/Lemmas/*` - helper lemmas.
* `lean/Verif/Props/*` - the property theorems, one section per property, each followed by an `example` showing that
  a concrete non-trivial case meets the hypotheses.

## Modelling conventions

* Exceptions are values: a Python function that may raise is `... -> Except Err a`. Functions that mutate an
  object before raising return the new state *and* the outcome, so partial updates after an exception are visible.
* `dict` is an association list in insertion order; `set` is a list used only through membership. Where Python
  iterates over a set the order is a parameter, or the result is only ever used as a set again.
* A `networkx.DiGraph` is the list of nodes in insertion order and the list of edges in insertion order.
  `topological_sort` is Kahn's algorithm with a FIFO queue (networkx >= 2.6; generation by generation is the same
  sequence). `ancestors`/`descendants` are breadth-first searches.
* Randomness is a state `S` threaded through every draw; nothing is assumed about it, so theorems hold for every
  random stream. Distributions are abstract (`sample : S -> V x S`, `logpdf : V -> XR`).
* Only C199-C208 and C210-C215, C218-C231 and C233-C246 speak of probabilities. They assume an ideal generator (`Spec/Chance.lean`): states have a law `mu`, a
  step has an outcome with some probability, and the state after it is again distributed as `mu`, independently of the
  outcome. `Spec.rand01` is such a generator, on the unit interval, and the examples use it. Jobs of joblib draw from
  one stream in turn.
* Values are an abstract type `V`; numbers, where arithmetic matters, are elements of an arbitrary ordered field
  (or the reals, where `exp`/`log` are used). Floating point rounding is not modelled.
* Expressions are abstract syntax trees; the Python parser/unparser is trusted. Line classification
  (`parse_loci`) is modelled on characters.

## Trusted base

* Lean 4.33.0's kernel, and Mathlib as installed (its theorems are re-checked by the kernel like ours).
* The axioms `propext`, `Classical.choice` and `Quot.sound`. No axiom is added, nothing is left unproved, and no proof
  is computed outside the kernel. The appendix lists the axioms of each theorem.
* That the definitions in `lean/Verif/Model` and `lean/Verif/Py` say what the Python code does. They were written by
  reading the code; nothing was executed. The comments cite the lines, so each can be compared with its source.
* What is assumed of Python and of the libraries (none of them is in the repository), each as documented:
  * `dict` keeps insertion order; `set` iteration order is arbitrary; `sorted`/`list.sort` are stable sorts.
  * networkx: `add_node`, `add_edge`, `remove_*`, `ancestors`, `descendants`, `topological_sort`, `all_simple_paths`,
    `compose`, `subgraph` (`Model/Digraph.lean`).
  * numpy and scipy: `interp1d` sorts its points, interpolates with `np.interp`, takes only a tuple of two fill values as
    lower and upper; `quantile` (linear method), `choice` with weights (only that the index has positive weight and that weights
    which are not probabilities are refused), `isfinite`, `max` propagating NaN.
  * scipy: `logsumexp`; a frozen distribution is a `sample` function, a `logpdf`, two bounds, a mean and a deviation
    about which nothing is assumed, except in C140-C145, which assume the documented densities, probabilities and
    supports (`Model/Dist.lean`). Gaussian processes (scikit-learn) are an arbitrary `train`/`predict` pair.
  * pydantic: fields are filled from keywords in the order of the schema, refused values raise `ValueError`.
  * `ast.parse` and `ast.unparse` are inverse to each other on the expressions of `Model/Expr.lean`; `ast.walk` visits
    breadth first (`Model/Ast.lean`). The regular expressions are written out as matches (`Model/Script.lean`).
  * `solve_ivp`: C153 holds for every explicit Runge-Kutta method; C154 and C155 speak of the exact solution, which it
    approximates.
  * pandas: a data frame made of dictionaries has the keys as columns in order of first appearance; `mean` and `describe`
    leave out NaN (`Model/Frames.lean`).
  * joblib's `Parallel` returns the results in the order of the jobs.

Real numbers stand for floats, with both infinities and NaN (`XR`); rounding is not modelled, except in C72, where it is
the point (`Lemmas/Round.lean`). Loops that may not end take fuel; theorems about them hold for every fuel.

## Plan per property

| id | modelled | proof idea |
|----|----------|------------|
| C01 | Kahn's algorithm on the graph | queue invariant; leftover nodes all have a leftover predecessor, hence a cycle; conversely a cycle never becomes ready |
| C02 | BFS | closure invariant both ways |
| C03 | filters on in/out degree | induction along the topological order |
| C04 | filter of `order` | from C01 |
| C05 | simple-path collection | path between members iff anc/desc reachability; simple path extraction from walks |
| C06 | set difference loop | exact characterisation by induction on `cond`; sufficiency is false - counterexample, and `_partial` under a closure condition |
| C07 | edge deletion + BFS | path characterisation, then least closed set |
| C08 | difference, `None` default | exact; default argument fails - negation |
| C09 | loops removing nodes while iterating | false as named - negation; exact characterisation of what is removed |
| C10 | edge loops | `remove_in_edges` false - negation; out edges exact |
| C11 | compose | membership |
| C12 | `append_loci` with nested calls | invariant by induction over histories |
| C13 | same | false - counterexample; `_partial` for fresh names with known parents |
| C14 | same | false - counterexample (nested failure); `_partial` when no new parents are introduced |
| C15 | frozen flag and cache | invariant over histories |
| C16 | `find_rv_roots`, `find_exo` | membership, well-founded induction on ancestors |
| C17 | `form_js`, `bayes_net_from_json` | false (`RVRoots` missing) - proved to fail always; `_partial` with the key supplied |
| C18 | text level | false - counterexample |
| C19 | replay of appends | invariant of replay from a well-formed network |
| C20 | `merge`, `__check_edges` | false - counterexample; `_partial` |
| C21 | `has_randomness` | exact without given; false with given; `_partial` |
| C22 | `extend` | false - proved that every node becomes exogenous |
| C23-C25, C27, C28 | sampling loops over `Order` | loop invariant along a topological order |
| C26 | sum over keys | commutative monoid of extended numbers |
| C29-C31 | chromosome state machine | histories; topological loop invariant |
| C32-C36 | expression evaluation, call completion | structural induction on expressions |
| C37, C38 | text classification on characters | case analysis; permutation argument |
| C39 | `Const`, `CategoricalRV` | false for constants - negation; categories exact |
| C40 | registry heap | histories |
| C41-C46 | node set passes with the shared mutable sets made explicit in a heap | negations by counterexample, positive parts by induction on the tree |
| C47-C53 | tree of cores, actors | induction on the tree |
| C54, C55 | monitor state machine | histories |
| C56, C57 | converters over the reals | analysis lemmas from Mathlib |
| C58, C59 | decision table, ordered field algebra | case analysis |
| C60-C66 | ABC and SMC as state machines over streams of draws | invariants over rounds |
| C67 | `resample` over an arbitrary choice of indices | list lemmas |
| C68-C70 | HME waves | invariants over waves |
| C71-C75 | genetic algorithm | list lemmas, invariants over generations |
| C76-C78 | settings, serving, particle notes | histories |
| C79, C80 | chromosomes on a heap; `impulse` returning the half-updated object | concrete sharing; case analysis on where it raised |
| C81 | sampling loop with the random state | the draws made, listed by the loop invariant |
| C82, C83 | entries of a workshop; parameters of `triang` | histories; linear arithmetic |
| C84-C88 | frozen actors as shared objects; generation and breeding as tree functions | induction on the tree; counterexamples computed by `decide` |
| C89, C90 | converters, targets | analysis; ordered field algebra |
| C91, C92 | data model over a network | from C25-C28 |
| C93 | rejection ABC | quantile of a list of finite numbers lies between two order statistics |
| C94, C95 | SMC moves | case analysis over the proposals |
| C96, C97 | weighted deviations, proposals | sums over lists |
| C98-C101 | HME waves | invariants over waves; concrete one-parameter model |
| C102-C104 | genetic algorithm | order statistics; concrete run |
| C105, C106 | `resample`, rejection ABC | exp/log algebra; counting ghost state |
| C107-C112 | hazards over the reals, draws as functions of the random numbers | integrals against the exponential measure |
| C113-C120 | regressors, linear predictors, regressions | from effects listed one by one; monotonicity of `expit` |
| C121, C122 | transition matrices over `Rand` | support of an honest choice |
| C123-C125 | probability tables as lists of rows | sums over rows by key; joining with colons is injective without colons |
| C126-C129 | nearest interpolation on sorted rows | induction along the sorted times |
| C130-C133 | drawing and mutating over an arbitrary type of particles | tries listed one by one; induction on the rounds |
| C134-C137 | parallel mutants, evaluation, JSON, collection | as above, with a count of the likelihoods calculated |
| C138, C139 | objective of a network | the names that a `Chromosome` has; dictionary lookups |
| C140-C145 | creators of scipy's distributions, with the densities of its documentation | compared with Mathlib's laws; change of variables |
| C146-C148 | samplers of regressions, baselines | C140-C145 and the integrals of C109 |
| C149-C152 | empirical distributions, linear interpolation | induction along the points; Lebesgue measure of the random numbers |
| C153-C155 | SIR equations, records, targets | Picard-Lindelöf on a truncated field; integrating factors; a first integral; strict concavity of `log` |
| C156-C158 | counts and normal samples | squares; sums of independent normals; completing the square |
| C159-C161 | siblings, prototypes, free parameters | from the generation loops of C48, C49; random roots are exactly what `fill` draws |
| C166, C167 | the algorithms on data models | what the parts of a round return, then invariants over rounds; C24, C30, C77, C78 |
| C173-C178 | how things fail: missing names, outputs and parameters, refused proposals, infinite values | error monad; case tables |
| C179-C185 | function objects, function tables, operators by name | induction on expressions; lists of outcomes; histories of a table |
| C186 | evaluations that ABC-SMC reports | a counter carried along the loops; sums over rounds |
| C187-C189 | why resampling, proposals, tables and likelihoods fail | positions of finite weights; error monad |
| C190-C193 | posteriors as objects, rejection ABC and the sampler of priors as objects, objectives with simulations | C60, C93, C106, C130, C137 carried through the object |
| C194-C195 | clones with children | tree induction; generation from complete values draws nothing |
| C196-C198 | all samplers of a core, pseudo cores as mappings, groups by name | dictionaries updated key by key |
| C199-C200 | laws of samples of networks | the chance of a sequence of draws along the order of evaluation; C26 |
| C207 | the law of minimal samples | both loops side by side; unneeded draws sum to one |
| C208 | the law of the moves of ABC-SMC | geometric series of refusals; detailed balance |
| C209 | domains of all kinds of distributions | C56, C144; cases |
| C210 | the law of the first particles of ABC-SMC | C201's loop |
| C211-C213 | laws of the shuffle crossover, of `draw` and of first populations | induction over genes, tries, individuals |
| C214 | the law of tournament selection | counting injections |
| C215 | the law of tries and of collections of draws | induction over tries, products |
| C221-C224 | the laws of cores, of lines of cores and of samplers | the loop over names, in lockstep with `sample` |
| C225-C227 | the laws of breeding, impulses and histories of hierarchies | cores alike in all but probabilities; C221; induction over trees and programs |
| C228-C229 | the laws of interventions on chromosomes; the truncated factorisation | sampling and rendering as runs of steps; Tonelli over steps |
| C230-C232 | the laws of converters and of the points of history matching | cumulative distributions; truncation by increasing converters |
| C233-C235 | the laws of probability tables, and of chains of transitions | the law of categorical draws; powers of matrices |
| C236-C237 | independence of times to event, the law of predicted classes | product measures; the law of weighted choices |
| C238-C239 | categories drawn together, the log density of counts | products of shares |
| C240-C241 | the distribution function of empirical draws, independence of several | lines between neighbours; product measures |
| C242 | the distribution function and the mean of the triangle | integrals over the two sides |
| C243 | the law of samples with densities (lifts the restriction of C199 to discrete variables) | Tonelli along the loop of `sample`, marginal integrals |
| C244 | the law of the posterior of a data model with continuous parameters (lifts that of C220) | C243; try by try, geometric series |
| C245 | the posterior of the example `BetaBin`: mixtures of beta distributions, and exact conjugacy for small tolerances | C244; the run of the simulation computed, beta integrals |
| C246 | the law of the whole script of rejection ABC on `BetaBin`, test runs and random tolerance included; it ends with probability one | C245 given the test runs; sum over the distances they can have, counted by fibres |
| C247 | data frames of parameter sets: a row for each particle, a column for each parameter of any, what is in the cells; the same of predictions | induction over the columns seen so far |
| C248 | the mean of chromosomes: which entries there are, means over the numbers, bounds, order, copies | sums over lists |
| C249 | summaries of chromosomes: counts, means, extremes and quartiles in order, standard deviations, when it raises | interpolation in a sorted list is monotone |
| C250 | the data frame of chromosomes (false when a variable is named `LogProb`) | lookup in the dictionaries of the rows |
| C251 | the example `EpiSIR`: rejection ABC gives rates uniform on those of the prior whose epidemic is within the threshold; ABC-SMC begins with the prior | C244 with a simulation that is a function of the rates |
| C252 | the example `Normal2`: rejection ABC gives the density of the hierarchical prior times the chance that the means of two normal samples are within the threshold; ABC-SMC begins with the prior | C244; the mean of independent normal numbers is normal |
| C253 | every node of a network is exactly one of: to be calculated, exogenous, a value | invariant of accepted definitions |
| C254 | user-defined functions: the table of names; false that they can be called, since nothing reads the table | fields untouched by the operations of the graph |
| C255 | `sample` of data sets: calls one after the other; rows sampled from a table are independent | induction on the number of calls; C233 |
| C220 | the law of the posterior of a data model | try by try, geometric series |
| C218, C219 | the laws of first particles from parents and of the posterior of ABC-SMC | sums over picked indices, products |
| C216, C217 | tables of monitors, fits of the genetic algorithm | induction over rounds, invariant of the loop |
| C201-C202 | laws of rejection sampling | the loop unfolded by the number of rejections; geometric series |
| C203-C206 | laws of weighted choices | masses of indices; shares of weights |
| C168-C172 | the object around an algorithm | invariants over the histories of a fitter object; C62-C70 |
| C162-C165 | pseudo cores as trees of names; `reset_sc`, shared actors | simulation between the two trees by induction on the path |

## What is modelled and what is not

`tools/coverage.py` lists the functions of the repository that no definition cites.

| source (`src/sims_pars/`) | model | left out |
|---|---|---|
| `bayesnet/dag.py` | `Digraph`, `Dag` | printing |
| `bayesnet/bn.py` | `BN`, `BNRest`, `Script` | printing, plotting |
| `bayesnet/loci.py` | `Loci`, `Expr`, `Ast`, `Script` | printing |
| `bayesnet/chromosome.py` | `Sampling`, `ChromHeap`, `Frames` | columns of values that are not numbers in `mean` and `summarise` |
| `fn.py` | `Sampling` | - |
| `util.py` | `Expr`, `Ast`, `Parsed`, `Resample` | text output; `parse_function` deletes all blanks of a text before it parses it, which is taken not to change its meaning |
| `factory/` | `Factory`, `Registry` | printing; pydantic validation is a parameter |
| `prob.py` | `Prob` (constants, categories, triangle), `Dist` (wrappers around scipy), `Empirical` | `mean` and `std` of the wrappers are scipy's |
| `simulation/` | `NodeSet`, `SimCore`, `Relatives`, `CoreRest` | JSON output, printing |
| `monitor.py` | `Monitor` | logging, writing to files |
| `fit/base.py`, `results.py`, `converter.py`, `targets/` | `FitBase`, `Fitter` (the object, the idle model), `Converter`, `Targets`, `Frames` | logging; `targets/multi.py` (abstract, cannot be instantiated) |
| `fit/abcom` | `Abc`, `Quantile`, `Posteriors` (the object) | progress bars |
| `fit/abc_smc` | `Smc`, `Spread`, on a data model in `Assembled` | `test` (`sample_ess`, which is not called, is the one of `fit/abcom`, in `Abc`) |
| `fit/hme` | `Hme`, `Fitter` and `Posteriors` (the object) | the inside of the emulators |
| `fit/ga` | `Ga`, `Operators`, `GaFit` (the object) | the parallel branches |
| `fitting/base.py`, `util.py`, `fitter.py` | `Draw`, `Posteriors` | `Domain`, logging; parallel workers run in order |
| `fit/toys.py`, `fitting/cases.py` | `Toys`, `ToyNets` | the networks of parameters of all but `fit/toys.py`'s (text), how `solve_ivp` and `rvs` compute |
| `data/reg` | `Hazard`, `Regression`, `Samplers` | printing |
| `data/frame.py`, `data/static.py`, `data/timeseries.py` | `DataSample`, `Tables` | printing, kinds of interpolation other than `nearest` |

The package `data` imports its own modules under the old name `epidag`, and the name `distribution` for `prob`; at this
commit it cannot be imported unless that package is installed. Its code is modelled as it stands.

## Where the code and the stated property disagree

A property that the code does not have is kept as stated; a theorem `..._refuted` proves its negation on a concrete
case, and `..._partial` proves what does hold. The claim in `MANIFEST.json` is then `partial` and its note says why.

* Graphs: `minimal_requirements` drops shared ancestors (C06); `get_minimal_nodes` cannot be called without `given` (C08);
  `remove_upstream`/`remove_downstream` delete direct children/parents (C09); `remove_in_edges` removes the reversed edge (C10).
* Networks: a rejected definition deletes or half-overwrites (C13), after which a cycle can be accepted (C14); `to_json`
  lacks `RVRoots` so `clone` fails (C17); scripts are printed with tabs that the reader refuses (C18); `copy` loses
  descriptions (C19); `merge` can lose an overridden node (C20); `has_randomness` with `given` ignores other routes (C21);
  `extend` makes every node exogenous (C22); nothing reads the table of user-defined functions (C254).
* Evaluation: an extra parameter named like a distribution captures it (C26, C34) and one named like a function is
  called (C32); surplus positional arguments, strings and nested calls are mis-completed (C35); a call without arguments
  has no `Parents` (C36); `is_executable` refuses the functions of Python (C181); data functions can be registered without
  a sampler and cannot be used in definitions (C183); `ifelse` evaluates the branch it does not take (C184); some malformed lines raise AttributeError (C37) or are dropped (C38); `Const.logpdf` is `+inf`
  for impossible values (C39, C206); `sample` with given values does not draw from the conditional law (C200), and weights of categories
  are normalised by `sample` only (C206).
* Chromosomes: `impulse` with nothing to do raises (C31); `to_json` shares the dictionary (C79); a failed `impulse` keeps
  a stale probability (C80). `__dict__` is a method in `Chromosome` and `ParameterCore`, replacing the attribute dictionary.
* Node sets: lost nodes (C41), nodes both fixed and floating (C42), samplers that lack a parent (C46).
* Simulation cores: stale probabilities (C50) and samplers (C51), `clone`/`duplicate`/collecting `detach` fail (C52),
  shared frozen actors (C84), swallowed KeyError (C85), no prior after generation (C86), values replaced by None (C88);
  a value given to a pseudo core is listed but never found (C197); free parameters that float are not listed (C161); pseudo cores accept groups that do not exist (C162), skip the first
  name of an address and cannot be detached (C163); `reset_sc` fails halfway (C164); `get_child_samplers` fails until a
  child has asked for its actors (C165).
* Monitor: `step(0)` is `step()` (C54, C55). Workshops list `__builtins__` (C82).
* Targets and converters: one-sided ranges (C58), zero or negative means (C59), half the width (C90), infinite scale (C89).
* Fitting: NaN distances are accepted (C60, C62, C93); the serial mode of rejection ABC does not return, as it takes
  the JSON form of a particle for the particle (C61); an SMC round fails on ties (C66), its fall-back raises (C94), posteriors always take
  the parent (C95), and its moves do not leave the prior below the tolerance as it is (C208); parameters without step size are redrawn (C97), so that those handed to `set_parents` are lost in the first round (C167); HME keeps no point on ties (C69), or fewer than asked for next to infinite implausibilities (C178), needs both sizes
  (C70), keeps the sizes of the first model (C101) and asks its emulators in other coordinates (C98); plain particles
  cannot be copied (C78); what one fit is given is in force in the next (C169), the trace runs on over several fits (C170),
  and a fit that fails early leaves the state of the one before (C171, for rejection ABC C191), as does `close`; posteriors of rejection ABC are labelled `HME` (C190); `Domain` and the free parameters differ (C92); evidence without finite weights (C105).
* Genetic algorithm: it imports the top-level package `fit` and expects chromosomes with `LogLikelihood` and
  `LogPosterior`, which those of this commit lack, so it is modelled over an arbitrary type of individuals. Its fits all raise,
  as a `ParameterSet` has neither `ParameterList` nor `finish` (C217), so that the other statements are about its parts. Mutants go to
  the wrong individual (C74), the stop can come early (C75), the selection ignores `target` (C103), the best individual
  is not kept (C104), operators given to `fit` are not used (C172), surplus arguments of `tour` are dropped (C185), and adding machine epsilon is rounded away (C72).
* Distributions: `lnorm` exponentiates both of its parameters (C141); `invgamma` inverts its rate and refuses its own
  default (C142); `unif` accepts bounds in the wrong order (C143); empirical distributions take
  values that are not in order for the wrong quantiles (C150), report weights as log densities (C151) and have means
  outside of their values (C152); integers are searched between the integers, and categories have no ends (C209).
* Examples: targets of 0 have no spread, so that meeting them gives NaN (C155, C156), and negative means have a negative
  spread, so that distances are unbounded below (C157).
* The data frame of chromosomes shows the log probability in place of a variable named `LogProb` (C250).
* Hazards: Weibull means and deviations are too large by the square of `Lambda` (C108); the mean and the deviation of a
  hazard distribution use the reciprocal of the baseline's (C109); its log density is NaN (C111).
* Regressions: labels of categories are refused, only their positions work (C115); the multinomial model normalises
  inverse logits instead of exponentials (C117); Poisson predictions always raise (C118);
  empirical baselines cannot be made (C147), and expectations of survival regressions inherit the error of C109 (C148).
* Tables: `TransitionMatrix.sample` raises unless it has nothing to do (C122); in a probability table repeated
  combinations replace each other and values with colons are confused (C123, C124), and `condition` ignores columns that
  are not indices (C125); before the first and after the last time the first and the last row count, even if the rows
  are not in order (C126).
* Package `fitting`: it expects chromosomes with `LogPrior`, `LogLikelihood` and methods that those of this commit lack,
  so no objective of a network can be made (C138) and particles do not survive JSON (C136); it is modelled over an
  arbitrary type of particles. `draw` discards its last try (C131); `mutate_and_draw` returns the original instead of the
  mutant (C132) and need not end (C133); parallel mutants lose the parameters that are not scaled (C134); a likelihood
  that is not a number is calculated again (C135); `PriorSampling` ends with AttributeError (C137, C192) and can collect from the idle
  model; simulations that fail raise out of `draw` (C193). `fitting/fitter.py` imports `fit.results`, so it can only be
  imported with the package directory itself on the path.

## Wrong programs

`seeded/mutants.jsonl` lists edits of the model (each a plausible mistake), `tools/mutate.py` applies one at a time to a
copy outside this directory, rebuilds the theorems about it and appends what failed to `seeded/LOG.jsonl`. Edits that
nothing noticed led to further theorems; they were then tried again under a new id.

`tools/automutate.py` edits every definition mechanically (comparisons, signs, constants, branches, connectives,
exceptions), with the examples beside the theorems removed, and stops at the first theorem that fails;
`seeded/AUTO.jsonl` has the outcomes.

## Appendix: axioms

<!-- generated by tools/axioms.py -->
653 theorems are named in `MANIFEST.json`. `#print axioms` reports:

**Classical.choice, Quot.sound, propext** (449):
`Abc.C60_partial`, `Abc.C60_refuted`, `Abc.C93_partial`, `Abc.C93_refuted`, `Assembled.C166`, `Assembled.C166_abc`, `Assembled.C166_smc`, `Assembled.C167_partial`, `Assembled.C167_refuted`, `BN.C12_accepted_iff`, `BN.C12_fresh_accepted`, `BN.C12_well_formed`, `BN.C13_refuted_cycle`, `BN.C13_refuted_redefinition`, `BN.C13_rejection_partial`, `BN.C14_acyclic_partial`, `BN.C15_defrost`, `BN.C15_views`, `BN.C16_hypotheses`, `BN.C16_rv_roots`, `BN.C17_json_partial`, `BN.C17_refuted`, `BN.C19_copy_partial`, `BN.C19_refuted`, `BN.C20_merge_partial`, `BN.C21_deterministic_partial`, `BN.C21_given_partial`, `BN.C21_no_given`, `BN.C22_extend_partial`, `BN.C22_refuted`, `BNRest.C253`, `BNRest.C254_partial`, `Chromosome.C29_probability`, `Chromosome.C29_read`, `Chromosome.C30_consistent`, `Chromosome.C30_frame`, `Chromosome.C30_redrawn`, `Chromosome.C30_unknown`, `Chromosome.C31_partial`, `Chromosome.C31_plain`, `Collect.C134_refuted`, `Collect.C137_partial`, `Converter.C56_uniform`, `Converter.C56_value`, `Converter.C57_uniform`, `Converter.C57_value`, `Converter.C89_partial`, `Converter.C89_refuted`, `Cpt.C123_partial`, `Cpt.C123_refuted`, `Cpt.C124_partial`, `Cpt.C124_refuted`, `Cpt.C125_partial`, `Cpt.C125_refuted`, `Dag.C01_check_acyclic`, `Dag.C01_order_acyclic`, `Dag.C01_order_cyclic`, `Dag.C02_ancestors`, `Dag.C02_descendants`, `Dag.C02_downstream`, `Dag.C02_dual`, `Dag.C02_stream_errors`, `Dag.C02_upstream`, `Dag.C03_leaf_below`, `Dag.C03_leaves`, `Dag.C03_nonempty`, `Dag.C03_root_above`, `Dag.C03_roots`, `Dag.C04_sort`, `Dag.C05_convex`, `Dag.C05_idempotent`, `Dag.C05_minimal_dag`, `Dag.C06_exact`, `Dag.C06_order_independent`, `Dag.C06_refuted`, `Dag.C06_sufficient_partial`, `Dag.C07_errors`, `Dag.C07_least`, `Dag.C07_sufficient`, `Dag.C09_remove_downstream_partial`, `Dag.C09_remove_upstream_partial`, `Dag.C10_remove_in_edges_partial`, `Dag.C10_remove_out_edges`, `Dag.C11_identity`, `Dag.C11_merge`, `DataSample.C255`, `DataSample.C255_law`, `Described.C209_const_partial`, `Described.C209_converters_partial`, `Described.C209_integer_partial`, `Described.C209_partial`, `Described.C209_refuted`, `Dist.C140_beta`, `Dist.C140_chisq`, `Dist.C140_exp`, `Dist.C140_gamma`, `Dist.C140_norm`, `Dist.C140_unif`, `Dist.C141_partial`, `Dist.C141_refuted`, `Dist.C142_default_partial`, `Dist.C142_partial`, `Dist.C142_refuted`, `Dist.C143_accepted_partial`, `Dist.C143_partial`, `Dist.C143_refused_partial`, `Dist.C143_refuted`, `Dist.C144`, `Dist.C145_binom`, `Dist.C145_binom_refused`, `Dist.C145_interval`, `Dist.C145_pois`, `Draw.C131_refuted`, `Draw.C132_refuted`, `Draw.C133_partial`, `Draw.C133_refuted`, `Empirical.C149`, `Empirical.C149_new`, `Empirical.C150_partial`, `Empirical.C150_refuted`, `Empirical.C151_partial`, `Empirical.C151_refuted`, `Empirical.C152_partial`, `Empirical.C152_refuted`, `Expr.C32_depends_partial`, `Expr.C32_no_name_error`, `Expr.C32_parents`, `Expr.C32_refuted`, `Expr.C32_walk`, `Expr.C33_value`, `Expr.C34_no_capture_partial`, `Expr.C34_refuted`, `Expr.C35_complete_partial`, `Expr.C35_idempotent`, `Expr.C36_parents_partial`, `Failures.C173_net`, `Failures.C175`, `Failures.C178_hme`, `Failures.C178_partial`, `Failures.C178_refuted`, `FitBase.C77`, `FitBase.C77_prior`, `FitBase.C78_again`, `FitBase.C78_copy`, `FitBase.C78_copy_forgets`, `FitBase.C78_value`, `FitBase.C91`, `FitBase.C92_partial`, `FitBase.C92_refuted`, `Fitter.C168`, `Fitter.C170_partial`, `Fitter.C170_refuted`, `Fitter.C172_refuted`, `Frames.C248`, `Frames.C248_clones`, `Frames.C248_range`, `Frames.C249`, `Frames.C249_none`, `Frames.C249_std`, `Ga.C102`, `Ga.C103_refuted`, `Ga.C104_refuted`, `Ga.C71_average`, `Ga.C71_population`, `Ga.C72_exact_partial`, `Ga.C72_partial`, `Ga.C72_propose`, `Ga.C72_refuted`, `Ga.C73_survivors`, `Ga.C74_refuted`, `Ga.C75_partial`, `Ga.C75_refuted`, `GaFit.C217_partial`, `Hazard.C107`, `Hazard.C108_partial`, `Hazard.C108_refuted`, `Hazard.C109_partial`, `Hazard.C109_refuted`, `Hazard.C109_zero_partial`, `Hazard.C110`, `Hazard.C111_partial`, `Hazard.C111_refuted`, `Hazard.C112`, `Hme.C100`, `Hme.C100_converters`, `Hme.C101_partial`, `Hme.C101_refuted`, `Hme.C68`, `Hme.C68_emulated`, `Hme.C68_run`, `Hme.C69_partial`, `Hme.C69_refuted`, `Hme.C70_partial`, `Hme.C70_refuted`, `Hme.C98_partial`, `Hme.C98_refuted`, `Hme.C99`, `Laws.C199`, `Laws.C199_chromosome`, `Laws.C200_conditional_refuted`, `Laws.C200_law`, `Laws.C200_weights`, `Laws.C207`, `LawsAbc.C201`, `LawsAbc.C201_count`, `LawsAbc.C201_ends`, `LawsAbc.C202`, `LawsAbc.C202_test`, `LawsBayes.C220`, `LawsBayes.C220_first`, `LawsCat.C238`, `LawsCat.C238_one`, `LawsCat.C239`, `LawsCat.C239_edges`, `LawsCat.C239_scale`, `LawsConverter.C230`, `LawsConverter.C231`, `LawsConverter.C232`, `LawsDensity.C243`, `LawsDensity.C243_chromosome`, `LawsDensity.C243_evaluate`, `LawsDensity.C243_joint`, `LawsDraw.C212`, `LawsDraw.C215_collect`, `LawsDraw.C215_tries`, `LawsEmp.C240`, `LawsEmp.C240_lowest`, `LawsEmp.C241`, `LawsEmp.C241_shares`, `LawsGa.C211`, `LawsGa.C213`, `LawsHier.C225`, `LawsHier.C226`, `LawsHier.C227`, `LawsImpulse.C228`, `LawsImpulse.C229`, `LawsImpulse.C229_given`, `LawsNormal.C252`, `LawsNormal.C252_ends`, `LawsNormal.C252_first`, `LawsPosterior.C244`, `LawsPosterior.C244_first`, `LawsReg.C236`, `LawsReg.C236_zero`, `LawsReg.C237`, `LawsReg.C237_sampler`, `LawsResample.C203`, `LawsResample.C204`, `LawsResample.C205`, `LawsResample.C206_const_refuted`, `LawsResample.C206_draws`, `LawsResample.C206_next`, `LawsResample.C206_partial`, `LawsResample.C206_refuted`, `LawsScript.C246`, `LawsScript.C246_ends`, `LawsSim.C221`, `LawsSim.C221_logProb`, `LawsSim.C222`, `LawsSim.C222_frozen`, `LawsSim.C222_single`, `LawsSim.C222_value`, `LawsSim.C223`, `LawsSim.C223_joint`, `LawsSim.C224`, `LawsSim.C224_sample`, `LawsSir.C251`, `LawsSir.C251_ends`, `LawsSir.C251_first`, `LawsSmc.C208_actual`, `LawsSmc.C208_law`, `LawsSmc.C208_mutation`, `LawsSmc.C208_partial`, `LawsSmc.C208_refuted`, `LawsSmc.C210`, `LawsSmc.C210_ends`, `LawsSmc.C218`, `LawsSmc.C219`, `LawsSmc.C219_ends`, `LawsTable.C233`, `LawsTable.C233_condition`, `LawsTable.C233_marginal`, `LawsTable.C234`, `LawsTable.C235`, `LawsTable.C235_power`, `LawsTour.C214`, `LawsToy.C245`, `LawsToy.C245_ends`, `LawsToy.C245_exact`, `LawsToy.C245_first`, `LawsTriangle.C242`, `Lookups.C187`, `Lookups.C187_few`, `Lookups.C187_lost`, `Lookups.C187_many`, `Lookups.C188_mutate`, `NodeSet.C41_default`, `NodeSet.C41_partial`, `NodeSet.C41_single`, `NodeSet.C42_float_partial`, `NodeSet.C42_partial`, `NodeSet.C43_refused`, `NodeSet.C43_requests`, `NodeSet.C43_unknown`, `NodeSet.C45`, `NodeSet.C46_partial`, `NodeSet.C46_reads_partial`, `NodeSet.C46_runs_iff`, `Operators.C185_bare`, `Operators.C185_names`, `Operators.C185_refuted`, `Parsed.C181_partial`, `Posteriors.C190_refuted`, `Posteriors.C191_partial`, `Posteriors.C192_partial`, `Prob.C39_category_partial`, `Prob.C39_refuted_evaluate`, `Prob.C39_refuted_unknown`, `Prob.C39_refuted_weights`, `Prob.C83_triangle`, `Registry.C40_last_wins`, `Registry.C82_partial`, `Registry.C82_refuted`, `Regression.C113`, `Regression.C113_effects`, `Regression.C114`, `Regression.C114_types`, `Regression.C115_partial`, `Regression.C115_refuted`, `Regression.C116`, `Regression.C116_predictor`, `Regression.C117_partial`, `Regression.C117_refuted`, `Regression.C118_partial`, `Regression.C118_refuted`, `Regression.C119`, `Regression.C120`, `Regression.C120_zero`, `Resample.C105_partial`, `Resample.C105_refuted`, `Resample.C105_size_refuted`, `Resample.C67`, `Resample.C67_total`, `Samplers.C146_linear`, `Samplers.C146_logistic`, `Samplers.C146_poisson`, `Samplers.C146_predict`, `Samplers.C147_partial`, `Samplers.C147_refuted`, `Samplers.C148_order_partial`, `Samplers.C148_partial`, `Samplers.C148_refuted`, `Samplers.C148_weibull_partial`, `Samplers.C148_zero_partial`, `Sampling.C23_errors`, `Sampling.C23_keys`, `Sampling.C23_missing`, `Sampling.C23_total`, `Sampling.C24_by_kind`, `Sampling.C24_consistent`, `Sampling.C25_agrees`, `Sampling.C25_consistent`, `Sampling.C25_errors`, `Sampling.C25_keys`, `Sampling.C25_missing`, `Sampling.C25_unknown`, `Sampling.C26_ignores_partial`, `Sampling.C26_invalid`, `Sampling.C26_order`, `Sampling.C26_sum`, `Sampling.C28_order_irrelevant`, `Sampling.C81_stream`, `Script.C37_function`, `Script.C37_pseudo`, `Script.C38_order`, `Script.C38_read`, `SimCore.C159`, `SimCore.C159_twin`, `SimCore.C161_fixed`, `SimCore.C161_partial`, `SimCore.C161_refuted`, `SimCore.C162_partial`, `SimCore.C163_refuted`, `SimCore.C165_partial`, `SimCore.C165_refuted`, `SimCore.C194`, `SimCore.C195`, `SimCore.C197_partial`, `SimCore.C44`, `SimCore.C48_at`, `SimCore.C48_breed`, `SimCore.C49`, `SimCore.C49_refused`, `SimCore.C50_partial`, `SimCore.C51_partial`, `SimCore.C86_partial`, `SimCore.C87`, `SimCore.C88_partial`, `Smc.C62_partial`, `Smc.C62_refuted`, `Smc.C62_run`, `Smc.C62_stay`, `Smc.C63`, `Smc.C63_posterior`, `Smc.C64`, `Smc.C64_start`, `Smc.C65`, `Smc.C66_enough`, `Smc.C66_partial`, `Smc.C66_refuted`, `Smc.C66_stay`, `Smc.C94_refuted`, `Smc.C95_partial`, `Smc.C95_refuted`, `Spread.C96`, `Spread.C97_partial`, `Spread.C97_refuted`, `Tables.C121`, `Tables.C122_refuted`, `Targets.C58_refuted`, `Targets.C59_dist`, `Targets.C59_error_partial`, `Targets.C59_infinite`, `Targets.C59_range`, `Targets.C59_refuted`, `Targets.C59_zero_refuted`, `Targets.C90_partial`, `Targets.C90_refuted`, `TimeSeries.C126_partial`, `TimeSeries.C126_refuted`, `TimeSeries.C127`, `TimeSeries.C128`, `TimeSeries.C129`, `Toys.C153`, `Toys.C153_total`, `Toys.C154`, `Toys.C154_unique`, `Toys.C154_values`, `Toys.C155_partial`, `Toys.C155_refuted`, `Toys.C156_link`, `Toys.C156_partial`, `Toys.C156_refuted`, `Toys.C157_empty`, `Toys.C157_law`, `Toys.C157_partial`, `Toys.C157_refuted`, `Toys.C158`, `Toys.C158_density`.

**Quot.sound, propext** (156):
`Abc.C106`, `Abc.C61_collect`, `Abc.C61_partial`, `Abc.C61_refuted`, `BNRest.C254_refuted`, `Chromosome.C79_partial`, `Chromosome.C79_refuted`, `Chromosome.C80_partial`, `Collect.C134_missing_partial`, `Collect.C134_parallel_partial`, `Collect.C134_partial`, `Collect.C135_parallel_partial`, `Collect.C135_partial`, `Collect.C135_refuted`, `Collect.C136_missing_partial`, `Collect.C136_partial`, `Collect.C136_refuted`, `Collect.C137_refuted`, `Collect.C138_partial`, `Collect.C138_refuted`, `Collect.C139_exogenous`, `Dag.C04_sort_congr`, `Dag.C08_minimal_partial`, `Dag.C10_refuted`, `Dag.history_wf`, `Draw.C130_draw`, `Draw.C130_found`, `Draw.C131_partial`, `Draw.C132_partial`, `Draw.C133_fuel_partial`, `Evals.C186_first`, `Evals.C186_round`, `Evals.C186_trace`, `Expr.C33_no_capture`, `Expr.C35_surplus_dropped`, `Expr.C36_no_arguments`, `Expr.C36_parse_function`, `Failures.C173_monitor`, `Failures.C174`, `Failures.C174_hme`, `Failures.C174_note`, `Failures.C175_posterior`, `Failures.C176`, `Failures.C177`, `Failures.C177_network`, `Failures.C177_worker`, `Failures.C33_missing`, `Failures.C35_unknown`, `FitBase.C76`, `FitBase.C77_evaluate`, `FitBase.C78_json`, `FitBase.C78_refuted`, `FitBase.C92_bounds`, `Fitter.C169_hme`, `Fitter.C169_partial`, `Fitter.C169_refuted`, `Fitter.C169_smc`, `Fitter.C170_posterior`, `Fitter.C171_hme`, `Fitter.C171_partial`, `Fitter.C171_refuted`, `Fitter.C172_partial`, `Frames.C247`, `Frames.C247_order`, `Frames.C247_pred`, `Frames.C248_perm`, `Frames.C250_partial`, `Frames.C250_refuted`, `Ga.C103_partial`, `Ga.C104_partial`, `Ga.C71_shuffle`, `Ga.C73_importance`, `Ga.C73_tour`, `Ga.C74_partial`, `Ga.C75_stops`, `GaFit.C217_refuted`, `Hme.C69_empty`, `Hme.C69_implausibility`, `Hme.C98_training`, `Lookups.C188_table`, `Lookups.C189`, `Monitor.C216_none`, `Monitor.C216_table`, `Monitor.C54_increasing`, `Monitor.C54_record`, `Monitor.C54_same`, `Monitor.C55_next`, `Monitor.C55_refuted`, `NodeSet.C46_refuted`, `NodeSet.C46_refuted_sibling`, `Operators.C185_refused`, `Parsed.C179`, `Parsed.C179_error`, `Parsed.C180`, `Parsed.C180_agree`, `Parsed.C180_text`, `Parsed.C182`, `Parsed.C182_others`, `Parsed.C183_partial`, `Parsed.C183_unusable`, `Parsed.C184_exceptions`, `Posteriors.C190_partial`, `Posteriors.C191_refuted`, `Posteriors.C191_settings`, `Posteriors.C192_closed`, `Posteriors.C192_refuted`, `Posteriors.C192_settings`, `Posteriors.C193_json`, `Posteriors.C193_partial`, `Posteriors.C193_refuted`, `Posteriors.C193_simulate`, `Registry.C40_distinct`, `Registry.C40_same`, `Sampling.C26_never_nan`, `Sampling.C27_evaluated`, `Script.C18_refuted`, `Script.C18_refuted_error`, `Script.C37_constant`, `Script.C37_description`, `Script.C37_exogenous`, `Script.C37_forms`, `Script.C37_random`, `Script.C37_refusal`, `Script.C37_refuted`, `Script.C38_refuted`, `SimCore.C163_detach`, `SimCore.C163_partial`, `SimCore.C196`, `SimCore.C196_names`, `SimCore.C196_shared`, `SimCore.C197_refuted`, `SimCore.C198`, `SimCore.C47_iteration`, `SimCore.C47_lookup`, `SimCore.C47_missing`, `SimCore.C48_find`, `SimCore.C48_refused`, `SimCore.C48_tidy`, `SimCore.C51_refuted`, `SimCore.C51_refuted_sampler`, `SimCore.C52_partial`, `SimCore.C52_refuted`, `SimCore.C52_refuted_histories`, `SimCore.C53_mediators`, `SimCore.C53_pure`, `SimCore.C53_reads`, `SimCore.C84_partial`, `SimCore.C85_partial`, `Smc.C64_stops`, `Smc.C64_why`, `Smc.C94_partial`, `Tables.C122_partial`, `Targets.C58_accepts`, `Targets.C58_partial`, `Targets.C58_refuses`, `Targets.C59_missing`.

**propext** (44):
`BN.C14_refuted`, `BN.C15_read_only`, `BN.C16_exo`, `BN.C20_refuted`, `BN.C21_refuted_deterministic`, `BN.C21_refuted_given`, `Chromosome.C31_refuted`, `Chromosome.C80_refuted`, `Dag.C02_unknown`, `Dag.C08_refuted`, `Dag.C09_refuted_downstream`, `Dag.C09_refuted_upstream`, `Expr.C35_refuted`, `Expr.C35_refuted_context`, `Expr.C35_refuted_string`, `Failures.C32_once`, `NodeSet.C41_refuted`, `NodeSet.C41_refuted_pseudo`, `NodeSet.C42_refuted`, `NodeSet.C42_refuted_overlap`, `Operators.C185_tour_partial`, `Parsed.C181_refuted`, `Parsed.C183_refusals`, `Parsed.C183_refuted`, `Parsed.C184_partial`, `Parsed.C184_refuted`, `Parsed.C184_step`, `Sampling.C24_shadow`, `Sampling.C26_refuted`, `Sampling.C26_value_needed`, `Sampling.C27_chromosome`, `Script.C18_partial`, `Script.C37_blanks`, `SimCore.C160`, `SimCore.C162_refuted`, `SimCore.C164_partial`, `SimCore.C164_refuted`, `SimCore.C197_actors`, `SimCore.C50_refuted`, `SimCore.C52_overwrites`, `SimCore.C84_refuted`, `SimCore.C85_refuted`, `SimCore.C86_refuted`, `SimCore.C88_refuted`.

**no axioms** (4):
`Monitor.C54_backward`, `Monitor.C55_partial`, `Parsed.C179_blueprint`, `Prob.C39_refuted_const`.
<!-- end -->
