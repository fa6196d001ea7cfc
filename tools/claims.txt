C01 proved
  Props.Dag.C01_order_acyclic Props.Dag.C01_order_cyclic Props.Dag.C01_check_acyclic Props.Dag.history_wf
C02 proved
  Props.Dag.C02_ancestors Props.Dag.C02_descendants Props.Dag.C02_unknown Props.Dag.C02_dual Props.Dag.C02_upstream Props.Dag.C02_downstream Props.Dag.C02_stream_errors
C03 proved
  Props.Dag.C03_roots Props.Dag.C03_leaves Props.Dag.C03_root_above Props.Dag.C03_leaf_below Props.Dag.C03_nonempty
C04 proved
  Props.Dag.C04_sort Props.Dag.C04_sort_congr
C05 proved
  Props.Dag.C05_minimal_dag Props.Dag.C05_convex Props.Dag.C05_idempotent
C06 partial
  Props.Dag.C06_exact Props.Dag.C06_order_independent Props.Dag.C06_sufficient_partial Props.Dag.C06_refuted
  note: False of the code: ancestors of a conditioned node are dropped even if they also reach the target by another route. Exact content proved; sufficiency proved when cond is closed under parents.
C07 proved
  Props.Dag.C07_sufficient Props.Dag.C07_least Props.Dag.C07_errors
C08 partial
  Props.Dag.C08_minimal_partial Props.Dag.C08_refuted
  note: False of the code when given is left out: TypeError.
C09 partial
  Props.Dag.C09_remove_upstream_partial Props.Dag.C09_remove_downstream_partial Props.Dag.C09_refuted_upstream Props.Dag.C09_refuted_downstream
  note: False of the code: remove_upstream deletes direct children, remove_downstream direct parents. What they do is characterised exactly.
C10 partial
  Props.Dag.C10_remove_out_edges Props.Dag.C10_remove_in_edges_partial Props.Dag.C10_refuted
  note: remove_out_edges proved; remove_in_edges is false of the code (removes the reversed edge, NetworkXError).
C11 proved
  Props.Dag.C11_merge Props.Dag.C11_identity
C12 proved
  Props.BN.C12_well_formed Props.BN.C12_accepted_iff Props.BN.C12_fresh_accepted
C13 partial
  Props.BN.C13_rejection_partial Props.BN.C13_refuted_redefinition Props.BN.C13_refuted_cycle
  note: False of the code: a rejected definition of an existing node deletes it, and redefining a node that has parents raises NetworkXError after overwriting it. Proved for definitions of new names.
C14 partial
  Props.BN.C14_acyclic_partial Props.BN.C14_refuted
  note: False of the code: after a failed redefinition a later accepted one can leave a cycle. Proved for histories that never redefine a node with parents.
C15 proved
  Props.BN.C15_read_only Props.BN.C15_views Props.BN.C15_defrost
C16 proved
  Props.BN.C16_rv_roots Props.BN.C16_exo Props.BN.C16_hypotheses
C17 partial
  Props.BN.C17_json_partial Props.BN.C17_refuted
  note: False of the code: to_json never writes RVRoots, so clone and bayes_net_from_json(to_json()) raise KeyError. Proved once the key is supplied.
C19 partial
  Props.BN.C19_copy_partial Props.BN.C19_refuted
  note: Proved for reloadable definitions; the description of a node is dropped by copy.
C20 partial
  Props.BN.C20_merge_partial Props.BN.C20_refuted
  note: False of the code: overriding a node but not its children loses the node. Proved when the overlay is closed under children.
C21 partial
  Props.BN.C21_no_given Props.BN.C21_given_partial Props.BN.C21_deterministic_partial Props.BN.C21_refuted_given Props.BN.C21_refuted_deterministic
  note: Exact without given; with given false of the code on diamonds, proved when given is closed under parents.
C22 partial
  Props.BN.C22_extend_partial Props.BN.C22_refuted
  note: False of the code: extend carries over the names only, every node becomes exogenous.
C23 proved
  Props.Sampling.C23_missing Props.Sampling.C23_keys Props.Sampling.C23_errors Props.Sampling.C23_total
C24 proved
  Props.Sampling.C24_consistent Props.Sampling.C24_by_kind Props.Sampling.C24_shadow
C25 proved
  Props.Sampling.C25_missing Props.Sampling.C25_errors Props.Sampling.C25_keys Props.Sampling.C25_consistent Props.Sampling.C25_agrees Props.Sampling.C25_unknown
C26 partial
  Props.Sampling.C26_sum Props.Sampling.C26_value_needed Props.Sampling.C26_never_nan Props.Sampling.C26_invalid Props.Sampling.C26_order Props.Sampling.C26_ignores_partial Props.Sampling.C26_refuted
  note: False of the code in one clause: a parameter that is not a node but is named like a distribution captures it. Everything else is proved, that clause for extra names not occurring in a distribution definition.
C27 proved
  Props.Sampling.C27_chromosome Props.Sampling.C27_evaluated
C28 proved
  Props.Sampling.C28_order_irrelevant
C29 proved
  Props.Chromosome.C29_read Props.Chromosome.C29_probability
C30 proved
  Props.Chromosome.C30_frame Props.Chromosome.C30_redrawn Props.Chromosome.C30_consistent Props.Chromosome.C30_unknown
C31 partial
  Props.Chromosome.C31_refuted Props.Chromosome.C31_partial Props.Chromosome.C31_plain
  note: False of the code: set.union of no sets raises TypeError. The chromosome is unchanged; without a network it is a no-op.
C79 partial
  Props.Chromosome.C79_refuted Props.Chromosome.C79_partial
  note: False of the code: to_json returns the Locus dictionary itself. A chromosome rebuilt with from_json is independent.
C80 partial
  Props.Chromosome.C80_refuted Props.Chromosome.C80_partial
  note: False of the code: Locus is updated before the probability is cleared. Only values it was told to set can have changed.
C32 partial
  Props.Expr.C32_parents Props.Expr.C32_walk Props.Expr.C32_depends_partial Props.Expr.C32_no_name_error Props.Expr.C32_refuted Props.Failures.C32_once
  note: Parents are exact; execute also reads a called name from the environment, so dependence on the parents alone is false. Proved for environments agreeing on the called names.
C33 proved
  Props.Expr.C33_no_capture Props.Expr.C33_value Props.Failures.C33_missing
C34 partial
  Props.Expr.C34_no_capture_partial Props.Expr.C34_refuted
  note: False of the code: a variable named like the distribution captures it. Proved for environments agreeing on the called names.
C35 partial
  Props.Expr.C35_complete_partial Props.Expr.C35_idempotent Props.Expr.C35_surplus_dropped Props.Expr.C35_refuted Props.Expr.C35_refuted_string Props.Expr.C35_refuted_context Props.Failures.C35_unknown
  note: False of the code for surplus positional arguments, string literals and calls inside a larger expression. Proved for calls with at most as many positional arguments as fields left.
C36 partial
  Props.Expr.C36_parse_function Props.Expr.C36_parents_partial Props.Expr.C36_no_arguments
  note: Parsing is exact at any nesting; Parents of a call without arguments is a TypeError.
C81 proved
  Props.Sampling.C81_stream
C18 partial
  Props.Script.C18_refuted Props.Script.C18_refuted_error Props.Script.C18_partial
  note: False of the code: form_script indents each line by a tab, which no definition may start with, so what is read back has no nodes or is an AttributeError. A network read from text prints that text again.
C37 partial
  Props.Script.C37_blanks Props.Script.C37_random Props.Script.C37_pseudo Props.Script.C37_constant Props.Script.C37_function Props.Script.C37_exogenous Props.Script.C37_description Props.Script.C37_refusal Props.Script.C37_forms Props.Script.C37_refuted
  note: The five forms and the refusal of other lines without ~ and # hold; ill-formed lines with ~ or # raise AttributeError instead of ScriptException, and a second # moves the definition into the description.
C38 partial
  Props.Script.C38_read Props.Script.C38_order Props.Script.C38_refuted
  note: Reading and independence of the order hold; a line that is neither header nor definition is dropped without a report.
C39 partial
  Props.Prob.C39_refuted_const Props.Prob.C39_refuted_evaluate Props.Prob.C39_refuted_unknown Props.Prob.C39_refuted_weights Props.Prob.C39_category_partial
  note: False of the code: a constant gives +inf to impossible values, which evaluate_nodes passes on; an unknown category is a KeyError; weights are not normalised in logpdf. Categories of weight zero do get -inf.
C40 proved
  Props.Registry.C40_same Props.Registry.C40_distinct Props.Registry.C40_last_wins
C54 partial
  Props.Monitor.C54_increasing Props.Monitor.C54_record Props.Monitor.C54_backward Props.Monitor.C54_same Props.Monitor.C55_refuted
  note: Recorded times increase and each record is as stated; refusal of earlier times and no change at the same time are proved for t other than 0, and fail for step(0) (see C55).
C55 partial
  Props.Monitor.C55_refuted Props.Monitor.C55_partial Props.Monitor.C55_next
  note: False of the code: step(0) is taken for step(). Any other time is used as given.
C82 partial
  Props.Registry.C82_refuted Props.Registry.C82_partial
  note: False of the code: evaluating in a workshop adds __builtins__ to its entries. Exact for workshops in which nothing was evaluated.
C83 proved
  Props.Prob.C83_triangle

C41 partial
  Props.NodeSet.C41_refuted
  Props.NodeSet.C41_refuted_pseudo
  Props.NodeSet.C41_partial
  Props.NodeSet.C41_single
  Props.NodeSet.C41_default
  note: False of the code: a deterministic node two steps below an unrequested fixed node is lost (C41_refuted), and so is the second of two pseudo nodes in the default core (C41_refuted_pseudo). Proved: nodes whose parents are requested along one path are allocated in every hierarchy; an exact description for a single node set with parent-closed requests; every node for the default core without pseudo nodes.

C42 partial
  Props.NodeSet.C42_refuted
  Props.NodeSet.C42_refuted_overlap
  Props.NodeSet.C42_partial
  Props.NodeSet.C42_float_partial
  Props.NodeSet.C41_default
  note: False of the code: a random mediator of two fixed requests, or a random node requested twice, ends up both fixed and floating. Proved for a single node set with parent-closed requests, for a single floating-only node set and for the default core (without pseudo nodes).

C43 proved
  Props.NodeSet.C43_requests
  Props.NodeSet.C43_refused
  Props.NodeSet.C43_unknown

C45 proved
  Props.NodeSet.C45
  Props.NodeSet.C41_default

C46 partial
  Props.NodeSet.C46_refuted
  Props.NodeSet.C46_refuted_sibling
  Props.NodeSet.C46_reads_partial
  Props.NodeSet.C46_runs_iff
  Props.NodeSet.C46_partial
  note: False of the code: compound samplers may miss a parent of an intermediate node (C46_refuted) and siblings share was_fixed (C46_refuted_sibling). Proved: an exact criterion for every sampler of every hierarchy (C46_runs_iff), sufficiency when fixed ancestors have no parents, and the reading discipline for hierarchies without siblings.

C47 proved
  Props.SimCore.C47_lookup
  Props.SimCore.C47_missing
  Props.SimCore.C47_iteration

C49 proved
  Props.SimCore.C49
  Props.SimCore.C49_refused

C50 partial
  Props.SimCore.C50_refuted
  Props.SimCore.C50_partial
  note: False of the code: a core of which only an intervened value is written keeps its probability. Proved exactly: the probability is cleared in the cores that hold an affected value other than the given ones, and only there.

C51 partial
  Props.SimCore.C51_refuted
  Props.SimCore.C51_refuted_sampler
  Props.SimCore.C51_partial
  note: False of the code: an impulse setting a frozen variable together with one of its parents leaves its sampler stale, and a child with its own value of a parent changes the sampler held for its siblings. Proved for every history without these two and without failing impulses.

C53 proved
  Props.SimCore.C53_mediators
  Props.SimCore.C53_reads
  Props.SimCore.C53_pure

C44 proved
  Props.SimCore.C44

C48 proved
  Props.SimCore.C48_tidy
  Props.SimCore.C48_refused
  Props.SimCore.C48_breed
  Props.SimCore.C48_find
  Props.SimCore.C48_at
  note: Addresses are split at '@', so a nickname containing '@' cannot be addressed (C48_at).

C52 partial
  Props.SimCore.C52_refuted
  Props.SimCore.C52_refuted_histories
  Props.SimCore.C52_overwrites
  Props.SimCore.C52_partial
  note: False of the code: clone and duplicate raise whenever LogLikelihood was not set from outside (where it was, see C194 and C195), which no operation on cores does, and collecting values while detaching ends in AttributeError for any core that is found, after having overwritten own values. Proved: detaching without collecting, and which values the failing call leaves.

C84 partial
  Props.SimCore.C84_refuted
  Props.SimCore.C84_partial
  note: False of the code for frozen actors, which are shared and updated in place. Proved for all other actors.

C85 partial
  Props.SimCore.C85_refuted
  Props.SimCore.C85_partial
  note: False of the code: KeyError is swallowed while generating. Proved: a value is missing only where the definition raised KeyError, never for constants; given values are all kept and nothing else is added.

C86 partial
  Props.SimCore.C86_refuted
  Props.SimCore.C86_partial
  note: False of the code for generated cores, which have no prior. Proved after every successful impulse.

C87 proved
  Props.SimCore.C87

C88 partial
  Props.SimCore.C88_refuted
  Props.SimCore.C88_partial
  note: False of the code when a variable taken from outside is held by nobody above: the computed value is replaced by None. Proved whenever those variables are given or held above.

C56 proved
  Props.Converter.C56_value
  Props.Converter.C56_uniform
  note: Over the reals with infinities and NaN; rounding is not modelled.

C57 proved
  Props.Converter.C57_value
  Props.Converter.C57_uniform
  note: Over the reals with infinities and NaN; rounding is not modelled.

C58 partial
  Props.Targets.C58_refuted
  Props.Targets.C58_partial
  Props.Targets.C58_accepts
  Props.Targets.C58_refuses
  note: False of the code in the last part: a dictionary with m and only one end of the range is read as an error target. Proved: the rest, for every source that is read.

C59 partial
  Props.Targets.C59_refuted
  Props.Targets.C59_zero_refuted
  Props.Targets.C59_error_partial
  Props.Targets.C59_range
  Props.Targets.C59_infinite
  Props.Targets.C59_dist
  Props.Targets.C59_missing
  note: False of the code for a zero mean or error and for negative means. Proved otherwise.

C76 proved
  Props.FitBase.C76

C77 proved
  Props.FitBase.C77
  Props.FitBase.C77_prior
  Props.FitBase.C77_evaluate

C78 partial
  Props.FitBase.C78_value
  Props.FitBase.C78_again
  Props.FitBase.C78_copy
  Props.FitBase.C78_copy_forgets
  Props.FitBase.C78_json
  Props.FitBase.C78_refuted
  note: Proved for particles with chromosomes. False for particles with plain parameters, which history matching makes: they can neither be copied nor turned into JSON.

C89 partial
  Props.Converter.C89_refuted
  Props.Converter.C89_partial
  note: False of the code for an infinite scale. Proved for every finite non-negative scale.

C90 partial
  Props.Targets.C90_refuted
  Props.Targets.C90_partial
  note: False of the code: the error target has half that width. Proved: it agrees with the range m - e*m/2 .. m + e*m/2.

C91 proved
  Props.FitBase.C91

C92 partial
  Props.FitBase.C92_refuted
  Props.FitBase.C92_partial
  Props.FitBase.C92_bounds
  note: False of the code for a random root given exogenously or not drawn as a float. Proved what the two lists are, and that they agree otherwise.

C60 partial
  Props.Abc.C60_partial
  Props.Abc.C60_refuted
  note: Proved when no distance is NaN. False of the code otherwise: a particle at NaN distance is accepted.

C61 partial
  Props.Abc.C61_partial
  Props.Abc.C61_collect
  Props.Abc.C61_refuted
  note: Proved for initialise and for the loop that collects the particles. False of the code in general: the serial mode of sample_posteriors does not return.

C67 proved
  Props.Resample.C67
  Props.Resample.C67_total

C93 partial
  Props.Abc.C93_partial
  Props.Abc.C93_refuted
  note: Proved when no distance is NaN. False of the code otherwise: a NaN tolerance leaves a variable unbound.

C62 partial
  Props.Smc.C62_partial
  Props.Smc.C62_run
  Props.Smc.C62_stay
  Props.Smc.C62_refuted
  note: Proved when no distance is NaN. False of the code otherwise: the tolerance becomes NaN.

C63 proved
  Props.Smc.C63
  Props.Smc.C63_posterior

C64 proved
  Props.Smc.C64
  Props.Smc.C64_stops
  Props.Smc.C64_start
  Props.Smc.C64_why

C65 proved
  Props.Smc.C65

C66 partial
  Props.Smc.C66_partial
  Props.Smc.C66_enough
  Props.Smc.C66_stay
  Props.Smc.C66_refuted
  note: False of the code: a round fails when fewer than three particles of positive weight are strictly within the new tolerance, for example when all distances are equal. Proved exactly when this happens, that nothing else but the model makes a round fail, and sufficient conditions.

C94 partial
  Props.Smc.C94_partial
  Props.Smc.C94_refuted
  note: False of the code: the fall-back raises KeyError for every particle of a round. Proved what a returned proposal is.

C95 partial
  Props.Smc.C95_partial
  Props.Smc.C95_refuted
  note: False of the code: the parent is collected in both cases. Proved that the posterior consists of particles of positive weight of the last population.

C96 proved
  Props.Spread.C96

C97 partial
  Props.Spread.C97_partial
  Props.Spread.C97_refuted
  note: False of the code: a parameter without step size is drawn from the prior again. Proved for the parameters with a step size and for the exogenous ones.

C68 proved
  Props.Hme.C68
  Props.Hme.C68_emulated
  Props.Hme.C68_run
  note: In exact arithmetic, for uniform numbers in [0,1].

C69 partial
  Props.Hme.C69_partial
  Props.Hme.C69_implausibility
  Props.Hme.C69_refuted
  Props.Hme.C69_empty
  note: False of the code: when the implausibilities tie above the cut-off no point is kept, and the wave then fails. Proved which points are kept, that the cut-off is not below the configured one, and sufficient conditions for keeping the fraction (less one point).

C70 partial
  Props.Hme.C70_partial
  Props.Hme.C70_refuted
  note: False of the code: a given n_sims without n_ems is an unbound local variable. Proved that this is the only failure and which sizes result.

C98 partial
  Props.Hme.C98_partial
  Props.Hme.C98_training
  Props.Hme.C98_refuted
  note: False of the code: the emulators are trained on parameter values and asked at points of the unit cube. Proved what they are trained on and asked, and that this agrees when the converters are the identity.

C99 proved
  Props.Hme.C99

C100 proved
  Props.Hme.C100
  Props.Hme.C100_converters

C101 partial
  Props.Hme.C101_partial
  Props.Hme.C101_refuted
  note: False of the code: initialise overwrites the settings, so the sizes of the first model stay. Proved for sizes that are not given.

C71 proved
  Props.Ga.C71_average
  Props.Ga.C71_shuffle
  Props.Ga.C71_population

C72 partial
  Props.Ga.C72_exact_partial
  Props.Ga.C72_partial
  Props.Ga.C72_propose
  Props.Ga.C72_refuted
  note: False in double precision: from magnitude 2 on, adding machine epsilon to an end of the domain is rounded away and the end itself is proposed. Proved in exact arithmetic, and in double precision for ends between -2 and 2.

C73 proved
  Props.Ga.C73_tour
  Props.Ga.C73_importance
  Props.Ga.C73_survivors

C74 partial
  Props.Ga.C74_partial
  Props.Ga.C74_refuted
  note: False of the code: the j-th position drawn gets the proposal of individual j. Proved that it is kept or replaced by the proposal of an individual at the same or an earlier position, and of which one.

C75 partial
  Props.Ga.C75_partial
  Props.Ga.C75_stops
  Props.Ga.C75_refuted
  note: The bound on the generations holds. The early stop can come one generation too soon when the first population has fitness minus infinity; proved otherwise.

C102 proved
  Props.Ga.C102

C103 partial
  Props.Ga.C103_partial
  Props.Ga.C103_refuted
  note: False of the code: the selector is always called with its default, the posterior.

C104 partial
  Props.Ga.C104_partial
  Props.Ga.C104_refuted
  note: False of the code: the best individual is only reported. Proved that the one reported is the best of its generation.

C105 partial
  Props.Resample.C105_partial
  Props.Resample.C105_refuted
  Props.Resample.C105_size_refuted
  note: False of the code when all weights are impossible (plus infinity is reported) and when another size is requested (the total is divided by that size). Proved otherwise.

C106 proved
  Props.Abc.C106

C107 proved
  Props.Hazard.C107

C108 partial
  Props.Hazard.C108_partial
  Props.Hazard.C108_refuted
  note: False of the code for Weibull hazards: both are multiplied by Lambda instead of divided. Proved for exponential hazards and Lambda = 1.

C109 partial
  Props.Hazard.C109_partial
  Props.Hazard.C109_zero_partial
  Props.Hazard.C109_refuted
  note: False of the code: the mean of the hazard is inverted once more. Proved what is reported and when it is right.

C110 proved
  Props.Hazard.C110

C111 partial
  Props.Hazard.C111_refuted
  Props.Hazard.C111_partial
  note: False of the code everywhere: the log of a negative number is taken, and the risk ratio is ignored. Proved for the extra probability of zero.

C112 proved
  Props.Hazard.C112

C113 proved
  Props.Regression.C113
  Props.Regression.C113_effects

C114 proved
  Props.Regression.C114
  Props.Regression.C114_types

C115 partial
  Props.Regression.C115_refuted
  Props.Regression.C115_partial
  note: False of the code: labels are refused (ValueError), positions are expected. Proved what positions give.

C116 proved
  Props.Regression.C116
  Props.Regression.C116_predictor

C117 partial
  Props.Regression.C117_refuted
  Props.Regression.C117_partial
  note: False of the code: inverse logits are normalised instead of exponentials. Proved what the odds are and that their order is right.

C118 partial
  Props.Regression.C118_refuted
  Props.Regression.C118_partial
  note: False of the code: predict always raises, the expectation is passed as the number of draws. Proved for the expectation.

C119 proved
  Props.Regression.C119

C120 proved
  Props.Regression.C120
  Props.Regression.C120_zero

C121 proved
  Props.Tables.C121

C122 partial
  Props.Tables.C122_refuted
  Props.Tables.C122_partial
  note: False of the code: sample passes its keywords, or pairs of a number and a state, where a state is expected. Proved that it raises for all arguments but an empty list of states.

C123 partial
  Props.Cpt.C123_refuted
  Props.Cpt.C123_partial
  note: False of the code: of repeated combinations the last row replaces the others, and values with colons are confused. Proved for distinct combinations without colons.

C124 partial
  Props.Cpt.C124_refuted
  Props.Cpt.C124_partial
  note: False of the code for values with colons. Proved for values without, repeated rows included.

C125 partial
  Props.Cpt.C125_refuted
  Props.Cpt.C125_partial
  note: False of the code: keywords that are not indices of the table are ignored. Proved for keywords that are, and distinct combinations without colons.

C126 partial
  Props.TimeSeries.C126_refuted
  Props.TimeSeries.C126_partial
  note: False of the code: outside the recorded times the first and the last row count, in whatever order they are. Proved between the recorded times and for rows in order.

C127 proved
  Props.TimeSeries.C127

C128 proved
  Props.TimeSeries.C128

C129 proved
  Props.TimeSeries.C129

C130 proved
  Props.Draw.C130_draw
  Props.Draw.C130_found

C131 partial
  Props.Draw.C131_refuted
  Props.Draw.C131_partial
  note: False of the code: the twenty-first particle is evaluated and discarded whatever its likelihood. Proved for the first twenty.

C132 partial
  Props.Draw.C132_refuted
  Props.Draw.C132_partial
  note: False of the code: the else of the loop replaces every accepted mutant by a copy of the original. Proved that only such copies and the empty particle are returned.

C133 partial
  Props.Draw.C133_refuted
  Props.Draw.C133_partial
  Props.Draw.C133_fuel_partial
  note: False of the code: proposals that raise ValueError or have an infinite prior are not counted. Proved for proposals of which none does.

C134 partial
  Props.Collect.C134_refuted
  Props.Collect.C134_partial
  Props.Collect.C134_missing_partial
  Props.Collect.C134_parallel_partial
  note: False of the code: parameters outside scale are drawn afresh. Proved for those in scale, with the order of the results, the counts, and KeyError for parameters that the original lacks.

C135 partial
  Props.Collect.C135_refuted
  Props.Collect.C135_partial
  Props.Collect.C135_parallel_partial
  note: False of the code: a likelihood that is not a number is calculated again. Proved for the others.

C136 partial
  Props.Collect.C136_refuted
  Props.Collect.C136_partial
  Props.Collect.C136_missing_partial
  note: False of the code: the empty particle comes back with values, and the to_json of Chromosome lacks the entries that are read, so that drawing in parallel raises. Proved for particles whose to_json has them, up to further values.

C137 partial
  Props.Collect.C137_refuted
  Props.Collect.C137_partial
  note: False of the code: it always ends with AttributeError, and without parallel workers N_Eval is the number of the particles. Proved what is left in the collector.

C138 partial
  Props.Collect.C138_refuted
  Props.Collect.C138_partial
  note: False of the code: Chromosome lacks is_prior_evaluated, so that no objective can be made. Proved what the free parameters would be if it had it.

C139 proved
  Props.Collect.C139_exogenous

C140 proved
  Props.Dist.C140_gamma
  Props.Dist.C140_exp
  Props.Dist.C140_norm
  Props.Dist.C140_chisq
  Props.Dist.C140_beta
  Props.Dist.C140_unif

C141 partial
  Props.Dist.C141_refuted
  Props.Dist.C141_partial
  note: False of the code for all parameters: both are exponentiated, so that exp(meanlog) is the mean and exp(sdlog) the deviation of the logarithm. Negative meanlog is refused.

C142 partial
  Props.Dist.C142_refuted
  Props.Dist.C142_partial
  Props.Dist.C142_default_partial
  note: False of the code for every rate but one: the reciprocal has the rate 1/rate. The default a = 2 is refused when it is given.

C143 partial
  Props.Dist.C143_refuted
  Props.Dist.C143_partial
  Props.Dist.C143_refused_partial
  Props.Dist.C143_accepted_partial
  note: False of the code: unif accepts bounds in the wrong order, and the log density is then not a number. Proved for all others.

C144 proved
  Props.Dist.C144

C145 proved
  Props.Dist.C145_binom
  Props.Dist.C145_binom_refused
  Props.Dist.C145_pois
  Props.Dist.C145_interval

C146 proved
  Props.Samplers.C146_linear
  Props.Samplers.C146_predict
  Props.Samplers.C146_logistic
  Props.Samplers.C146_poisson

C147 partial
  Props.Samplers.C147_refuted
  Props.Samplers.C147_partial
  note: False of the code: empirical hazards always raise ValueError, as scipy takes the list of two fill values for one value. Proved for the other types.

C148 partial
  Props.Samplers.C148_refuted
  Props.Samplers.C148_partial
  Props.Samplers.C148_weibull_partial
  Props.Samplers.C148_order_partial
  Props.Samplers.C148_zero_partial
  note: False of the code: for an exponential baseline it holds exactly for a rate of one. Proved that the expectation is off by the square of the rate, that the order of cases is right, and when it holds for a Weibull baseline.

C149 proved
  Props.Empirical.C149_new
  Props.Empirical.C149

C150 partial
  Props.Empirical.C150_refuted
  Props.Empirical.C150_partial
  note: False of the code for values that are not in increasing order. Proved for those that are.

C151 partial
  Props.Empirical.C151_refuted
  Props.Empirical.C151_partial
  note: False of the code: the weights themselves are returned, and zero outside. Proved that.

C152 partial
  Props.Empirical.C152_refuted
  Props.Empirical.C152_partial
  note: False of the code: the mean can exceed the largest value. Proved what is returned for values from one on.

C153 proved
  Props.Toys.C153_total
  Props.Toys.C153

C154 proved
  Props.Toys.C154_unique
  Props.Toys.C154
  Props.Toys.C154_values

C155 partial
  Props.Toys.C155_refuted
  Props.Toys.C155_partial
  note: False of the code when the removal rate is 0: the targets of removals are then 0 without spread and the distance is NaN. Proved for positive rates and exact solutions.

C156 partial
  Props.Toys.C156_refuted
  Props.Toys.C156_partial
  Props.Toys.C156_link
  note: False of the code for an observed count of 0, where meeting it gives NaN. Proved for positive counts, and for the older package without restriction.

C157 partial
  Props.Toys.C157_refuted
  Props.Toys.C157_partial
  Props.Toys.C157_law
  Props.Toys.C157_empty
  note: False of the code for negative means, where distances fall without bound away from the data. Proved for positive means; the law of the simulated mean is proved for all.

C158 proved
  Props.Toys.C158_density
  Props.Toys.C158

C159 proved
  Props.SimCore.C159
  Props.SimCore.C159_twin

C160 proved
  Props.SimCore.C160

C161 partial
  Props.SimCore.C161_refuted
  Props.SimCore.C161_partial
  Props.SimCore.C161_fixed
  note: False of the code where random roots float in the root group; proved that only random roots are listed, each once, and that all are for fully fixed cores.

C162 partial
  Props.SimCore.C162_refuted
  Props.SimCore.C162_partial
  note: False of the code for groups that do not exist, which pseudo cores accept; proved for histories in which no breed is refused.

C163 partial
  Props.SimCore.C163_refuted
  Props.SimCore.C163_partial
  Props.SimCore.C163_detach
  note: False of the code, which skips the first name of the address, and whose bred pseudo cores have no parent to detach from; proved with a name put before the address.

C164 partial
  Props.SimCore.C164_refuted
  Props.SimCore.C164_partial
  note: False of the code for any core with children, where it raises TypeError halfway; proved for cores without.

C165 partial
  Props.SimCore.C165_refuted
  Props.SimCore.C165_partial
  note: False of the code before a child has asked for its actors, when it raises; proved from then on.

C166 proved
  Props.Assembled.C166
  Props.Assembled.C166_smc
  Props.Assembled.C166_abc

C167 partial
  Props.Assembled.C167_refuted
  Props.Assembled.C167_partial
  note: False of the code after the first round, whose proposals draw everything but the random roots with a step anew; proved of the particles of round 0, and that later ones are such or served afresh (C166).

C168 proved
  Props.Fitter.C168

C169 partial
  Props.Fitter.C169_refuted
  Props.Fitter.C169_partial
  Props.Fitter.C169_smc
  Props.Fitter.C169_hme
  note: False of the code, which keeps what one fit was given for the next; proved that a setting is what was given for it last in any call. History matching writes its sizes over its settings.

C170 partial
  Props.Fitter.C170_refuted
  Props.Fitter.C170_partial
  Props.Fitter.C170_posterior
  note: False of the code from the second fit on, as the monitor is never emptied; proved of the rows that each fit adds.

C171 partial
  Props.Fitter.C171_refuted
  Props.Fitter.C171_partial
  Props.Fitter.C171_hme
  note: False of the code after a fit whose initialisation raised, which leaves the state of the fit before; proved of fits that ended.

C172 partial
  Props.Fitter.C172_refuted
  Props.Fitter.C172_partial
  note: False of the code once a fit is given an operator; proved that the operators stay those of the constructor.

C173 proved
  Props.Failures.C173_net
  Props.Failures.C173_monitor

C174 proved
  Props.Failures.C174
  Props.Failures.C174_note
  Props.Failures.C174_hme

C175 proved
  Props.Failures.C175
  Props.Failures.C175_posterior

C176 proved
  Props.Failures.C176

C177 proved
  Props.Failures.C177
  Props.Failures.C177_worker
  Props.Failures.C177_network

C178 partial
  Props.Failures.C178_refuted
  Props.Failures.C178_partial
  Props.Failures.C178_hme
  note: False of the code: next to infinite values the interpolation gives NaN. Proved which orders give a finite number, infinity and NaN, and that the cut-off then stays at the setting.

C179 proved
  Props.Parsed.C179
  Props.Parsed.C179_error
  Props.Parsed.C179_blueprint
C180 proved
  Props.Parsed.C180
  Props.Parsed.C180_agree
  Props.Parsed.C180_text
  note: C180_text assumes that no operator or function raises NameError by itself (NoOwnNameError).
C181 partial
  Props.Parsed.C181_partial
  Props.Parsed.C181_refuted
  note: What is_executable accepts never lacks a name; but an expression that calls a function of Python such as max is refused although it can be executed.
C182 proved
  Props.Parsed.C182
  Props.Parsed.C182_others
C183 partial
  Props.Parsed.C183_partial
  Props.Parsed.C183_refusals
  Props.Parsed.C183_refuted
  Props.Parsed.C183_unusable
  note: Accepted functions stay; but a plain callable is accepted and has no sampler, and no definition can use a data function (KeyError when the call is completed; the fallback would read an attribute of a string).
C184 partial
  Props.Parsed.C184_partial
  Props.Parsed.C184_exceptions
  Props.Parsed.C184_step
  Props.Parsed.C184_refuted
  note: The branch that is not taken is evaluated as well, and its exception is the outcome.
C185 partial
  Props.Operators.C185_bare
  Props.Operators.C185_names
  Props.Operators.C185_tour_partial
  Props.Operators.C185_refused
  Props.Operators.C185_refuted
  note: Surplus positional arguments and unknown keywords of tour are dropped without an exception.

C186 proved
  Props.Evals.C186_first
  Props.Evals.C186_round
  Props.Evals.C186_trace
  note: The simulations are counted by any function of the random state that goes up by one with each draw from the prior and each evaluated proposal (Tally); as in the rest of the model of ABC-SMC the serial and the parallel mode share one stream.

C187 proved
  Props.Lookups.C187
  Props.Lookups.C187_few
  Props.Lookups.C187_many
  Props.Lookups.C187_lost
  note: Over the reals; the random generator is one that only draws indices of positive probability (Honest).

C188 proved
  Props.Lookups.C188_mutate
  Props.Lookups.C188_table
  note: For the proposals every value can be added to (ops.plus does not raise).

C189 proved
  Props.Lookups.C189
  note: For a particle whose outputs are there and which has neither note yet.

C190 partial
  Props.Posteriors.C190_partial
  Props.Posteriors.C190_refuted
  note: Fails for rejection ABC, whose posteriors are always labelled HME.

C191 partial
  Props.Posteriors.C191_partial
  Props.Posteriors.C191_settings
  Props.Posteriors.C191_refuted
  note: Holds when the last fit ended and no distance is NaN; a fit that raises, or close(), leaves the old tolerance beside another model.

C192 partial
  Props.Posteriors.C192_partial
  Props.Posteriors.C192_settings
  Props.Posteriors.C192_closed
  Props.Posteriors.C192_refuted
  note: A fit never ends normally, because a ParameterSet has no finish; the collector is filled all the same.

C193 partial
  Props.Posteriors.C193_partial
  Props.Posteriors.C193_simulate
  Props.Posteriors.C193_json
  Props.Posteriors.C193_refuted
  note: A simulation that gives None raises ValueError out of draw; what is drawn has the likelihood of its own simulation.

C194 proved
  Props.SimCore.C194
  note: In the model a core whose log likelihood was never set has none, and cloning it raises AttributeError (C52_refuted). All values of the original are in the copy; values that are not are those of fixed nodes, drawn for the copy.

C195 proved
  Props.SimCore.C195
  note: The group of the root is one of the simulation core (it is for every hierarchy the code can build).

C196 proved
  Props.SimCore.C196
  Props.SimCore.C196_shared
  Props.SimCore.C196_names
  note: Own and shared actors. The listed names are distinct, being keys of a dictionary.

C197 partial
  Props.SimCore.C197_refuted
  Props.SimCore.C197_partial
  Props.SimCore.C197_actors
  note: False of the code: every look-up in a pseudo core raises KeyError, also for keys it contains and yields. Proved: membership, length and iteration agree; and what the members for actors give.

C198 proved
  Props.SimCore.C198
  note: Which of several node sets of one name a group is made of is left open; unique names are checked when the hierarchy is validated.

C199 proved
  Props.Laws.C199
  Props.Laws.C199_chromosome
  note: Distributions are those that draw each value with the probability whose log their logpdf returns, so this speaks of discrete random variables (C206 says which objects are of that kind). Given values are those of exogenous or computed nodes. The random generator is ideal: Spec.Chance.

C200 partial
  Props.Laws.C200_conditional_refuted
  Props.Laws.C200_law
  Props.Laws.C200_weights
  note: False of the code, which draws the variables above what is given from the prior (two coins). Proved: the law that it does draw from, and that the probabilities of what is given are the weights that turn it into the joint law (likelihood weighting).

C201 proved
  Props.LawsAbc.C201
  Props.LawsAbc.C201_count
  Props.LawsAbc.C201_ends
  note: Finite tolerances. A NaN distance counts as within (C60). The random generator is ideal; prior draws have any law P.

C202 proved
  Props.LawsAbc.C202
  Props.LawsAbc.C202_test
  note: What either branch collects before the parameter set is built (C61 says how the serial branch fails after that). The jobs of joblib draw from one stream in turn.

C203 proved
  Props.LawsResample.C203
  note: An ideal weighted choice is assumed of numpy (Spec.FairPick).

C204 proved
  Props.LawsResample.C204
  note: More than two positive weights; otherwise the fall-back raises (C94).

C205 proved
  Props.LawsResample.C205
  note: More than five members of finite likelihood; otherwise the assertion of the code fails.

C206 partial
  Props.LawsResample.C206_refuted
  Props.LawsResample.C206_const_refuted
  Props.LawsResample.C206_partial
  Props.LawsResample.C206_draws
  Props.LawsResample.C206_next
  note: False of the code: categories are drawn with normalised weights while logpdf takes the log of the weight as given, and the density of a constant is +inf at other values. Proved: categories and next states are drawn with their shares, and the densities agree when the weights sum to 1.

C207 proved
  Props.Laws.C207
  note: The random generator is ideal (Spec.Chance). Values of exogenous nodes are given, as sample asks for them all.

C208 partial
  Props.LawsSmc.C208_partial
  Props.LawsSmc.C208_refuted
  Props.LawsSmc.C208_law
  Props.LawsSmc.C208_mutation
  Props.LawsSmc.C208_actual
  note: False: the acceptance ratio has neither the prior nor the chances of refused proposals, which are drawn again. Two walks on three points refute it. Proved: particles move independently, each by the kernel given in full (C208_law); what this kernel leaves invariant is the measure for which the proposals are reversible, weighted with the chances that a proposal is not refused (C208_actual), which is the prior only without refusals and with proposals reversible for it (C208_partial). The step sizes are given: they depend on the population alone.

C209 partial
  Props.Described.C209_partial
  Props.Described.C209_const_partial
  Props.Described.C209_integer_partial
  Props.Described.C209_converters_partial
  Props.Described.C209_refuted
  note: False for integers, which get values between the integers, and for categories, whose ends are None, so that get_converter raises TypeError. Proved for continuous distributions with a finite mean and deviation, and for constants; for binom, exactly which numbers are converted into possible values; and that converters can be made for all other kinds.

C210 proved
  Props.LawsSmc.C210
  Props.LawsSmc.C210_ends
  note: For ideal generators. That it ends with probability one needs a finite distance to have a positive probability.

C211 proved
  Props.LawsGa.C211
  note: For ideal generators, and domains that are the same whatever is drawn for them.

C212 proved
  Props.LawsDraw.C212
  note: For ideal generators.

C213 proved
  Props.LawsGa.C213
  note: For ideal generators.

C214 proved
  Props.LawsTour.C214
  note: For ideal generators, finite fitnesses, and clones as fit as their originals.

C215 proved
  Props.LawsDraw.C215_tries
  Props.LawsDraw.C215_collect
  note: For ideal generators.

C216 proved
  Props.Monitor.C216_none
  Props.Monitor.C216_table
  note: How pandas lays out a list of records is modelled, see Model/Monitor.lean.

C217 partial
  Props.GaFit.C217_refuted
  Props.GaFit.C217_partial
  note: False of the code for all inputs: a ParameterSet has no ParameterList, and every fit raises AttributeError before anything is drawn. Proved for a set that has it, and a finish; the last population is then labelled Prior.

C218 proved
  Props.LawsSmc.C218
  note: For ideal generators.

C219 proved
  Props.LawsSmc.C219
  Props.LawsSmc.C219_ends
  note: For ideal generators, and step sizes that are not random. The chance that a mutation ends is one for a particle with a noted distance outside of parallel mode, else that of a finite distance within 20 proposals.

C220 proved
  Props.LawsBayes.C220
  Props.LawsBayes.C220_first
  note: For ideal generators, and networks with countably many outcomes. The tolerance is given.

C221 proved
  Props.LawsSim.C221
  Props.LawsSim.C221_logProb
  note: For ideal generators. What the group takes from above is there to be read.

C222 proved
  Props.LawsSim.C222
  Props.LawsSim.C222_value
  Props.LawsSim.C222_single
  Props.LawsSim.C222_frozen
  note: For ideal generators, and samplers that find what they need (C46); finitely many ways for the value alone.

C223 proved
  Props.LawsSim.C223
  Props.LawsSim.C223_joint
  note: For ideal generators, and samplers that find what they need (C46).

C224 proved
  Props.LawsSim.C224
  Props.LawsSim.C224_sample
  note: For ideal generators. The cores of a line, each with the values of the ones above; siblings are not in it.

C225 proved
  Props.LawsHier.C225
  note: For ideal generators. Hierarchies are compared by names, groups, values and actors; the log probabilities of cores are in C49 and C221.

C226 proved
  Props.LawsHier.C226
  note: For ideal generators. Frozen actors to be updated follow definitions that leave nothing to chance; what the impulse draws again are fixed variables of cores with values.

C227 proved
  Props.LawsHier.C227
  note: For ideal generators; the chances of steps are those of C225 and C226.

C228 proved
  Props.LawsImpulse.C228
  note: For ideal generators; shocked variables are not exogenous.

C229 proved
  Props.LawsImpulse.C229
  Props.LawsImpulse.C229_given
  note: For ideal generators; the conditions hold values for the network's variables, and those conditioned upon are not drawn again in the comparison with given values.

C230 proved
  Props.LawsConverter.C230
  note: In exact arithmetic.

C231 proved
  Props.LawsConverter.C231
  note: For ideal generators, in exact arithmetic.

C232 proved
  Props.LawsConverter.C232
  note: In exact arithmetic, given that scipy's LatinHypercube fills every slice of every column once.

C233 proved
  Props.LawsTable.C233
  Props.LawsTable.C233_marginal
  Props.LawsTable.C233_condition
  note: For fair generators, in exact arithmetic. What happens for repeated combinations and values with colons is in C123-C125.

C234 proved
  Props.LawsTable.C234
  note: For fair generators, in exact arithmetic.

C235 proved
  Props.LawsTable.C235
  Props.LawsTable.C235_power
  note: For fair generators, in exact arithmetic; for the powers every state has a row.

C236 proved
  Props.LawsReg.C236
  Props.LawsReg.C236_zero
  note: For independent exponential and uniform numbers, in exact arithmetic.

C237 proved
  Props.LawsReg.C237
  Props.LawsReg.C237_sampler
  note: For fair generators, in exact arithmetic.

C238 proved
  Props.LawsCat.C238
  Props.LawsCat.C238_one
  note: For fair generators, in exact arithmetic.

C239 proved
  Props.LawsCat.C239
  Props.LawsCat.C239_scale
  Props.LawsCat.C239_edges
  note: For fair generators, in exact arithmetic; the density has no multinomial coefficient.

C240 proved
  Props.LawsEmp.C240
  Props.LawsEmp.C240_lowest
  note: For uniform numbers, in exact arithmetic.

C241 proved
  Props.LawsEmp.C241
  Props.LawsEmp.C241_shares
  note: For independent uniform numbers, in exact arithmetic.

C242 proved
  Props.LawsTriangle.C242
  note: In exact arithmetic; scipy is trusted to have the density of triang that its documentation gives.

C243 proved
  Props.LawsDensity.C243
  Props.LawsDensity.C243_joint
  Props.LawsDensity.C243_evaluate
  Props.LawsDensity.C243_chromosome
  note: A random variable draws with the density exp(logpdf) with respect to a sigma-finite measure of its own (counting measure, Lebesgue measure), measurably in its parameters. Lifts the restriction of C199 to discrete variables. The random generator is ideal. C243_evaluate and C243_chromosome are for given values of exogenous or computed nodes.

C244 proved
  Props.LawsPosterior.C244
  Props.LawsPosterior.C244_first
  note: For ideal generators. Lifts the restriction of C220 to countably many outcomes. The densities of the network must integrate to one, and the run of the simulation must be measurable in the parameters. The tolerance is given.

C245 proved
  Props.LawsToy.C245
  Props.LawsToy.C245_exact
  Props.LawsToy.C245_ends
  Props.LawsToy.C245_first
  note: The networks of the two scripts are modelled with their definitions (ToyNets). Assumes that beta(1, 1) draws with and reports the uniform density, that binom draws with binomial probabilities and is refused for a prob outside [0, 1], and an ideal generator.

C246 proved
  Props.LawsScript.C246
  Props.LawsScript.C246_ends
  note: The parallel branch, with its jobs on one random stream; the serial branch raises (C61). Assumes the same of the generator and the distributions as C245.

C247 proved
  Props.Frames.C247
  Props.Frames.C247_order
  Props.Frames.C247_pred
  note: pandas' construction of a data frame from dictionaries is assumed as documented.

C248 proved
  Props.Frames.C248
  Props.Frames.C248_range
  Props.Frames.C248_clones
  Props.Frames.C248_perm
  note: Numeric columns; pandas' mean, which leaves out NaN, is assumed as documented.

C249 proved
  Props.Frames.C249
  Props.Frames.C249_std
  Props.Frames.C249_none
  note: Numeric columns; pandas' describe is assumed as documented. The square root is any function.

C250 partial
  Props.Frames.C250_partial
  Props.Frames.C250_refuted
  note: False of chromosomes with a variable named LogProb, whose value is replaced by the log probability; proved of all others.

C251 proved
  Props.LawsSir.C251
  Props.LawsSir.C251_first
  Props.LawsSir.C251_ends
  note: Assumes that the distributions unif(0.1, 1) and unif(1, 20) draw independent uniform numbers and report the uniform densities, and that the integration answers with six states of total 1000 that are measurable in the rates.

C252 proved
  Props.LawsNormal.C252
  Props.LawsNormal.C252_first
  Props.LawsNormal.C252_ends
  note: Assumes that gamma(0.1, 0.1) and norm(0, std) draw independent numbers of these laws and report their densities, that every gamma number is positive, that norm(0, std) is refused when std is not positive, and that sts.norm(mu, sd).rvs(n) draws n independent normal numbers.

C253 proved
  Props.BNRest.C253
C254 partial
  Props.BNRest.C254_partial
  Props.BNRest.C254_refuted
  note: The table is kept as stated, but nothing reads it, so that a definition that calls the function fails as it did without it.

C255 proved
  Props.DataSample.C255
  Props.DataSample.C255_law
