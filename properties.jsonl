{"id": "C01", "title": "Topological order is complete, duplicate free and respects every edge, and is refused exactly on cyclic graphs", "statement": "DAG.order() either returns a list containing every node exactly once in which the source of every edge comes before its target, or raises NetworkXUnfeasible; it raises exactly when the graph has a directed cycle, and check_acyclic() is True exactly when it does not raise.", "quantifier": "every finite directed graph, built in any insertion order", "why_tests_cant": "The space of graphs is infinite and the failure, if any, needs a particular shape of graph; a finite set of graphs cannot exclude it.", "anchors": ["src/sims_pars/bayesnet/dag.py::DAG.order", "src/sims_pars/bayesnet/dag.py::DAG.check_acyclic"]}
{"id": "C02", "title": "ancestors/descendants are exactly path reachability", "statement": "ancestors(x) is exactly the set of nodes y != x with a non-empty directed path from y to x; descendants(x) is the mirror image, y in ancestors(x) iff x in descendants(y); both raise NetworkXError exactly when x is not a node; upstream/downstream/get_offsprings of a non-empty collection are the unions, and an empty collection raises TypeError.", "quantifier": "every finite directed graph (cyclic ones included) and every node or collection of nodes", "why_tests_cant": "The space of graphs is infinite and the failure, if any, needs a particular shape of graph; a finite set of graphs cannot exclude it.", "anchors": ["src/sims_pars/bayesnet/dag.py::DAG.ancestors", "src/sims_pars/bayesnet/dag.py::DAG.descendants", "src/sims_pars/bayesnet/dag.py::DAG.upstream", "src/sims_pars/bayesnet/dag.py::DAG.downstream", "src/sims_pars/bayesnet/dag.py::get_offsprings"]}
{"id": "C03", "title": "roots and leaves", "statement": "roots() are exactly the nodes without incoming edges and leaves() exactly those without outgoing edges, in node insertion order; in an acyclic graph every node is a root or has a root among its ancestors, and is a leaf or has a leaf among its descendants; so a non-empty acyclic graph has both.", "quantifier": "every finite directed graph; second part every acyclic one", "why_tests_cant": "The space of graphs is infinite and the failure, if any, needs a particular shape of graph; a finite set of graphs cannot exclude it.", "anchors": ["src/sims_pars/bayesnet/dag.py::DAG.roots", "src/sims_pars/bayesnet/dag.py::DAG.leaves"]}
{"id": "C04", "title": "sort filters the topological order", "statement": "DAG.sort(nodes) contains exactly the members of nodes that are in the graph, each once, ancestors before descendants; names that are not nodes are ignored; BayesianNetwork.sort agrees.", "quantifier": "every acyclic graph, every collection of names", "why_tests_cant": "The space of graphs is infinite and the failure, if any, needs a particular shape of graph; a finite set of graphs cannot exclude it.", "anchors": ["src/sims_pars/bayesnet/dag.py::DAG.sort", "src/sims_pars/bayesnet/bn.py::BayesianNetwork.sort"]}
{"id": "C05", "title": "minimal_dag is the induced path-convex hull", "statement": "minimal_dag(g, S) contains exactly the members of S in g and every node lying on a directed path between two members, with exactly the edges of g between kept nodes; it is acyclic, contains S, is convex, and applying it again changes nothing.", "quantifier": "every acyclic graph and every collection of names", "why_tests_cant": "The space of graphs is infinite and the failure, if any, needs a particular shape of graph; a finite set of graphs cannot exclude it.", "anchors": ["src/sims_pars/bayesnet/dag.py::minimal_dag"]}
{"id": "C06", "title": "minimal_requirements(target, cond) together with cond suffices to compute target", "statement": "Every directed path into the target that starts at a node outside the result either passes through a member of cond or enters the result: i.e. once values for the result and for cond are known no other ancestor of the target is needed. The result does not depend on the order in which cond is listed, lists ancestors before descendants and never contains the target.", "quantifier": "every acyclic graph, target and list of conditioning nodes in any order", "why_tests_cant": "The space of graphs is infinite and the failure, if any, needs a particular shape of graph; a finite set of graphs cannot exclude it.", "anchors": ["src/sims_pars/bayesnet/dag.py::minimal_requirements"]}
{"id": "C07", "title": "get_sufficient_nodes is the least closed set", "statement": "get_sufficient_nodes(g, included, given) is the least set that contains included and, with every non-given node it contains, all its parents: n is in the result iff n is in included or a directed path leads from n to a member of included on which no node after n is given. Unknown given or included nodes raise NetworkXError; the argument graph is not modified.", "quantifier": "every acyclic graph, all lists included/given", "why_tests_cant": "The space of graphs is infinite and the failure, if any, needs a particular shape of graph; a finite set of graphs cannot exclude it.", "anchors": ["src/sims_pars/bayesnet/dag.py::get_sufficient_nodes"]}
{"id": "C08", "title": "get_minimal_nodes = sufficient nodes that are not given", "statement": "get_minimal_nodes(g, included, given) is exactly get_sufficient_nodes minus the given nodes, also when given is left out.", "quantifier": "every acyclic graph, all lists included, given or no given", "why_tests_cant": "The default-argument path and every graph must behave; tests sample a few graphs.", "anchors": ["src/sims_pars/bayesnet/dag.py::get_minimal_nodes"]}
{"id": "C09", "title": "remove_upstream / remove_downstream delete exactly the strict ancestors / descendants", "statement": "After remove_upstream(nodes) the strict ancestors of nodes (other than nodes themselves) and nothing else are gone; remove_downstream mirrors it for descendants.", "quantifier": "every acyclic graph and list of nodes", "why_tests_cant": "The space of graphs is infinite and the failure, if any, needs a particular shape of graph; a finite set of graphs cannot exclude it.", "anchors": ["src/sims_pars/bayesnet/dag.py::DAG.remove_upstream", "src/sims_pars/bayesnet/dag.py::DAG.remove_downstream"]}
{"id": "C10", "title": "remove_in_edges / remove_out_edges isolate a node from its parents / children", "statement": "remove_out_edges(n) removes exactly the edges leaving n; remove_in_edges(n) removes exactly the edges entering n; nodes and other edges are untouched.", "quantifier": "every directed graph and node of it", "why_tests_cant": "The space of graphs is infinite and the failure, if any, needs a particular shape of graph; a finite set of graphs cannot exclude it.", "anchors": ["src/sims_pars/bayesnet/dag.py::DAG.remove_in_edges", "src/sims_pars/bayesnet/dag.py::DAG.remove_out_edges"]}
{"id": "C11", "title": "merge_dag is the union", "statement": "merge_dag(g1,g2) has exactly the nodes and edges of either argument; merging with itself or with an empty graph changes nothing.", "quantifier": "all pairs of graphs", "why_tests_cant": "The space of graphs is infinite and the failure, if any, needs a particular shape of graph; a finite set of graphs cannot exclude it.", "anchors": ["src/sims_pars/bayesnet/dag.py::merge_dag"]}
{"id": "C12", "title": "A network built by accepted definitions is well formed", "statement": "After any sequence of definitions all of which were accepted, the graph is acyclic, the parents of every node in the graph are exactly the parents of its definition, every referenced name is a node, and names that were referenced but never defined are exogenous.", "quantifier": "every finite sequence of definitions, in any order", "why_tests_cant": "The invariant has to survive every history of appends; histories are unbounded.", "anchors": ["src/sims_pars/bayesnet/bn.py::BayesianNetwork.append_loci"]}
{"id": "C13", "title": "A rejected definition leaves the network as it was", "statement": "If append_loci (append_from_definition, append_from_js) raises, nodes, definitions and edges of the network are what they were before.", "quantifier": "every reachable network and every definition", "why_tests_cant": "Atomicity must hold for every state and every failing definition.", "anchors": ["src/sims_pars/bayesnet/bn.py::BayesianNetwork.append_loci"]}
{"id": "C14", "title": "The graph of a network is always acyclic", "statement": "After any sequence of definitions, accepted or rejected, the DAG of the network has no directed cycle, so Order is always available.", "quantifier": "every finite history of definitions including rejected ones, every iteration order of the parent sets", "why_tests_cant": "Histories and set iteration orders are unbounded.", "anchors": ["src/sims_pars/bayesnet/bn.py::BayesianNetwork.append_loci"]}
{"id": "C15", "title": "A completed network is read-only and its cached views are right", "statement": "After complete() every attempt to add a definition raises AttributeError and changes nothing, and Order, Roots, RVRoots, Leaves and Exo, which are then served from a cache, equal what would be recomputed from the graph; defrost() makes it editable again; this holds along every history of define / complete / defrost.", "quantifier": "every finite history of operations", "why_tests_cant": "Cache coherence is a statement about all histories.", "anchors": ["src/sims_pars/bayesnet/bn.py::BayesianNetwork.complete", "src/sims_pars/bayesnet/bn.py::BayesianNetwork.defrost", "src/sims_pars/bayesnet/bn.py::BayesianNetwork.Order"]}
{"id": "C16", "title": "RVRoots and Exo are exact", "statement": "RVRoots lists exactly the random variables with no random variable among their ancestors, in topological order; Exo lists exactly the exogenous nodes; every random variable is in RVRoots or has a member of RVRoots among its ancestors.", "quantifier": "every well-formed network", "why_tests_cant": "The space of graphs is infinite and the failure, if any, needs a particular shape of graph; a finite set of graphs cannot exclude it.", "anchors": ["src/sims_pars/bayesnet/bn.py::find_rv_roots", "src/sims_pars/bayesnet/bn.py::find_exo"]}
{"id": "C17", "title": "JSON round trip", "statement": "bayes_net_from_json(bn.to_json()) succeeds and yields a network with the same nodes, definitions, edges and cached views; clone() does the same.", "quantifier": "every network that can be built", "why_tests_cant": "A round trip must hold for every network.", "anchors": ["src/sims_pars/bayesnet/bn.py::form_js", "src/sims_pars/bayesnet/bn.py::bayes_net_from_json", "src/sims_pars/bayesnet/bn.py::BayesianNetwork.clone"]}
{"id": "C18", "title": "Script round trip", "statement": "bayes_net_from_script(bn.to_script()) yields a network with the same nodes and definitions as bn.", "quantifier": "every network that can be built", "why_tests_cant": "A round trip must hold for every network.", "anchors": ["src/sims_pars/bayesnet/bn.py::form_script", "src/sims_pars/bayesnet/bn.py::bayes_net_from_script", "src/sims_pars/bayesnet/loci.py::parse_loci"]}
{"id": "C19", "title": "copy reproduces the network", "statement": "copy(new_name) of a well-formed network succeeds and has the same nodes, definitions, parents and user defined functions, is frozen iff the original is, and later edits of either do not affect the other.", "quantifier": "every well-formed network, frozen or not", "why_tests_cant": "The space of graphs is infinite and the failure, if any, needs a particular shape of graph; a finite set of graphs cannot exclude it.", "anchors": ["src/sims_pars/bayesnet/bn.py::BayesianNetwork.copy"]}
{"id": "C20", "title": "merge keeps the overlay consistent", "statement": "merge(name, sub) yields a well-formed network in which every non-exogenous node of sub has the definition of sub, every other non-exogenous node of self keeps its definition, every parent of every node is present, and no exogenous node without children is left.", "quantifier": "all pairs of well-formed networks", "why_tests_cant": "The space of graphs is infinite and the failure, if any, needs a particular shape of graph; a finite set of graphs cannot exclude it.", "anchors": ["src/sims_pars/bayesnet/bn.py::BayesianNetwork.merge", "src/sims_pars/bayesnet/bn.py::BayesianNetwork._BayesianNetwork__check_edges"]}
{"id": "C21", "title": "has_randomness / is_deterministic are sound", "statement": "has_randomness(n) is True exactly when n or one of its ancestors is a random variable; has_randomness(n, given) is True exactly when n is a random variable or some random variable reaches n along a path that avoids given; is_deterministic(n, given)=True implies has_randomness(n, given)=False.", "quantifier": "every well-formed network, node and given list", "why_tests_cant": "The space of graphs is infinite and the failure, if any, needs a particular shape of graph; a finite set of graphs cannot exclude it.", "anchors": ["src/sims_pars/bayesnet/bn.py::BayesianNetwork.has_randomness", "src/sims_pars/bayesnet/bn.py::BayesianNetwork.is_deterministic"]}
{"id": "C22", "title": "extend carries over the definitions", "statement": "bn.extend(new) returns new completed with the definitions of bn added (overriding when override is set).", "quantifier": "all pairs of well-formed networks", "why_tests_cant": "The space of graphs is infinite and the failure, if any, needs a particular shape of graph; a finite set of graphs cannot exclude it.", "anchors": ["src/sims_pars/bayesnet/bn.py::BayesianNetwork.extend"]}
{"id": "C23", "title": "sample is total on well supplied input and its key set is exact", "statement": "sample(bn, cond) raises ValueError exactly when an exogenous node is missing from cond; otherwise a returned dict has exactly the keys of cond and of the network, and every given value is returned unchanged.", "quantifier": "every well-formed network, every cond, every random stream", "why_tests_cant": "Random streams, networks and conditions are unbounded.", "anchors": ["src/sims_pars/fn.py::sample"]}
{"id": "C24", "title": "sample is consistent with the definitions", "statement": "In the dict returned by sample every node that was not given has the value its definition yields when evaluated on the final dict (for random variables: some draw of the distribution its definition yields on the final dict), provided no node is named like a function used by a distribution definition.", "quantifier": "every well-formed network, cond and random stream", "why_tests_cant": "Random streams, networks and conditions are unbounded.", "anchors": ["src/sims_pars/fn.py::sample", "src/sims_pars/bayesnet/loci.py::FunctionLoci.render", "src/sims_pars/bayesnet/loci.py::DistributionLoci.render"]}
{"id": "C25", "title": "sample_minimally samples only what is needed and agrees with sample", "statement": "sample_minimally(bn, included, cond) raises ValueError exactly when a needed exogenous node is not supplied; sinks have exactly the keys of included that exist, mediators the other sufficient or given nodes; every sampled value is consistent; on networks without random variables the values equal those of sample.", "quantifier": "every well-formed network, included, cond and random stream", "why_tests_cant": "Random streams, networks and conditions are unbounded.", "anchors": ["src/sims_pars/fn.py::sample_minimally"]}
{"id": "C26", "title": "evaluate_nodes is the sum of conditional log densities", "statement": "evaluate_nodes(bn, pars) is the sum of the log densities of the random variables of bn present in pars, ignores names that are not nodes, does not depend on the order of pars, is -inf when any parameter is invalid or the sum is not a number, and is never NaN.", "quantifier": "every network and parameter dict", "why_tests_cant": "The space of graphs is infinite and the failure, if any, needs a particular shape of graph; a finite set of graphs cannot exclude it.", "anchors": ["src/sims_pars/fn.py::evaluate_nodes", "src/sims_pars/bayesnet/loci.py::DistributionLoci.evaluate"]}
{"id": "C27", "title": "A sampled chromosome carries its own log probability", "statement": "sample_chromosome(bn, cond) carries exactly the values sample returns and LogProb equal to evaluate_nodes of these values, hence is_evaluated() is True.", "quantifier": "every well-formed network, cond and random stream", "why_tests_cant": "Random streams, networks and conditions are unbounded.", "anchors": ["src/sims_pars/fn.py::sample_chromosome"]}
{"id": "C28", "title": "The declaration order is irrelevant", "statement": "For networks without random variables the sampled values depend only on the definitions and cond, not on the order in which the nodes were declared nor on the topological order used.", "quantifier": "every well-formed network without random variables and every topological order", "why_tests_cant": "The space of graphs is infinite and the failure, if any, needs a particular shape of graph; a finite set of graphs cannot exclude it.", "anchors": ["src/sims_pars/fn.py::sample"]}
{"id": "C29", "title": "Chromosome is a faithful mapping with a probability flag", "statement": "Along every history of item assignments, reads, clones and impulses a read returns the last value written (KeyError when never written), any assignment clears LogProb to NaN, and writing to a clone never affects the original.", "quantifier": "every finite history of operations", "why_tests_cant": "Histories are unbounded.", "anchors": ["src/sims_pars/bayesnet/chromosome.py::Chromosome.__setitem__", "src/sims_pars/bayesnet/chromosome.py::Chromosome.clone"]}
{"id": "C30", "title": "impulse performs an intervention and only touches what it must", "statement": "impulse(new, bn) on a chromosome sets every non-None value whose key it holds, re-renders exactly the other held descendants and the None-valued nodes in topological order, leaves every other value and the key set unchanged; if all non-intervened nodes were consistent with their definitions before, all non-intervened nodes are consistent afterwards; LogProb is cleared.", "quantifier": "every well-formed network, chromosome, intervention and random stream", "why_tests_cant": "Networks, interventions and random streams are unbounded.", "anchors": ["src/sims_pars/bayesnet/chromosome.py::Chromosome.impulse"]}
{"id": "C31", "title": "impulse with nothing to do is a no-op", "statement": "impulse(new, bn) with no key of new held by the chromosome leaves it unchanged.", "quantifier": "every chromosome, network and intervention with no held key", "why_tests_cant": "Must hold for every chromosome.", "anchors": ["src/sims_pars/bayesnet/chromosome.py::Chromosome.impulse"]}
{"id": "C32", "title": "parse_parents finds exactly the free variables a function definition depends on", "statement": "For every expression, the reported parents are exactly the names used outside call position that are never called; evaluating the expression on two environments that agree on the parents gives the same outcome, and it never fails with NameError when all parents are bound and all called names are known functions.", "quantifier": "every expression, every environment", "why_tests_cant": "The space of expressions is infinite and the failure, if any, needs a particular shape of expression; a finite set of expressions cannot exclude it.", "anchors": ["src/sims_pars/util.py::find_ast_parents", "src/sims_pars/util.py::MathExpression.execute", "src/sims_pars/util.py::MathExpression.is_executable"]}
{"id": "C33", "title": "Function definitions cannot capture other variables", "statement": "The value of a function node depends only on the values of its own parents: adding, removing or changing any other variable never changes the outcome.", "quantifier": "every function definition, every two environments agreeing on its parents", "why_tests_cant": "The space of graphs is infinite and the failure, if any, needs a particular shape of graph; a finite set of graphs cannot exclude it.", "anchors": ["src/sims_pars/bayesnet/loci.py::FunctionLoci.render"]}
{"id": "C34", "title": "Distribution definitions cannot capture other variables", "statement": "The distribution of a random node depends only on the values of its own parents.", "quantifier": "every distribution definition, every two environments agreeing on its parents", "why_tests_cant": "The space of graphs is infinite and the failure, if any, needs a particular shape of graph; a finite set of graphs cannot exclude it.", "anchors": ["src/sims_pars/bayesnet/loci.py::DistributionLoci.get_distribution", "src/sims_pars/factory/craftstation.py::Atelier.get_blueprint"]}
{"id": "C35", "title": "Argument completion follows the schema", "statement": "complete_def binds named arguments to their expressions, then positional ones to the remaining fields in schema order, then defaults; every field is bound exactly once, the result is again completable and completing it twice equals completing once.", "quantifier": "every schema and every call expression", "why_tests_cant": "Schemas and calls are unbounded.", "anchors": ["src/sims_pars/factory/craftstation.py::Atelier.complete_def"]}
{"id": "C36", "title": "parse_function extracts exactly the top-level arguments", "statement": "For a call f(a1..an, k1=e1..) parse_function returns the function name f and exactly the positional and keyword arguments in order; its Parents are the union of their parents.", "quantifier": "every call expression of any depth", "why_tests_cant": "Breadth-first AST walks can mis-handle particular nestings; the nestings are unbounded.", "anchors": ["src/sims_pars/util.py::parse_function"]}
{"id": "C37", "title": "Definitions are classified deterministically", "statement": "parse_loci maps name~expr to a random variable, name=f(...) to a pseudo node, name=expr to a constant when expr evaluates without unknown names and to a function otherwise, a bare name to an exogenous node, and refuses everything else with ScriptException; spaces never matter and text after # becomes the description.", "quantifier": "every line of text", "why_tests_cant": "Lines are unbounded strings.", "anchors": ["src/sims_pars/bayesnet/loci.py::parse_loci"]}
{"id": "C38", "title": "Script order is irrelevant for acyclic scripts with one definition per name, parents first", "statement": "Reading a script yields a network whose nodes are the defined and referenced names, each with its definition, independent of the order of the lines; every line that is neither header nor definition is reported.", "quantifier": "every script with one definition per name", "why_tests_cant": "Permutations of lines are factorially many.", "anchors": ["src/sims_pars/bayesnet/bn.py::bayes_net_from_script"]}
{"id": "C39", "title": "Log densities never reward impossible values", "statement": "The log density a distribution reports for a value it cannot produce is -inf, so evaluate_nodes is -inf for impossible values.", "quantifier": "every distribution with exact support known (constants, categories) and every value", "why_tests_cant": "Values are unbounded.", "anchors": ["src/sims_pars/prob.py::Const.logpdf", "src/sims_pars/prob.py::CategoricalRV.logpdf"]}
{"id": "C40", "title": "Named workshops are singletons and registration is last-wins", "statement": "Along every history get_atelier(name) returns the same object for the same name and different ones for different names, a registered creator is visible through every handle, and a later registration replaces the earlier one.", "quantifier": "every finite history of get/register calls", "why_tests_cant": "Histories are unbounded.", "anchors": ["src/sims_pars/factory/__init__.py::get_atelier", "src/sims_pars/factory/craftstation.py::Atelier.register"]}
{"id": "C41", "title": "Every node of the network is allocated", "statement": "After inject_bn every node of the network is fixed or floating in some node set of the hierarchy (or exogenous).", "quantifier": "every well-formed network and node set hierarchy", "why_tests_cant": "The space of graphs is infinite and the failure, if any, needs a particular shape of graph; a finite set of graphs cannot exclude it.", "anchors": ["src/sims_pars/simulation/nodeset.py::NodeSet.inject_bn", "src/sims_pars/simulation/nodeset.py::NodeSet._pass_down_undefined"]}
{"id": "C42", "title": "No node of a node set is both fixed and floating", "statement": "After inject_bn FixedNodes and FloatingNodes of every node set are disjoint.", "quantifier": "every well-formed network and node set hierarchy", "why_tests_cant": "The space of graphs is infinite and the failure, if any, needs a particular shape of graph; a finite set of graphs cannot exclude it.", "anchors": ["src/sims_pars/simulation/nodeset.py::NodeSet._resolve_local_nodes", "src/sims_pars/simulation/nodeset.py::NodeSet._resolve_relations"]}
{"id": "C43", "title": "Requests are honoured", "statement": "After inject_bn every node requested as fixed is in FixedNodes of its node set, every node requested as floating is in FloatingNodes or FixedNodes of its node set, and FixedNodes is duplicate free and lists ancestors before descendants; a request to float an ancestor of a fixed node is refused.", "quantifier": "every well-formed network and node set hierarchy", "why_tests_cant": "The space of graphs is infinite and the failure, if any, needs a particular shape of graph; a finite set of graphs cannot exclude it.", "anchors": ["src/sims_pars/simulation/nodeset.py::NodeSet.inject_bn"]}
{"id": "C44", "title": "A fully fixed simulation core is the network", "statement": "get_all_fixed_sc: the root core fixes every node; generate(exo) returns the values sample would return with the same random stream and its prior equals the sum of the log densities.", "quantifier": "every well-formed network, exogenous input and random stream", "why_tests_cant": "Networks and streams are unbounded.", "anchors": ["src/sims_pars/simulation/fn.py::get_all_fixed_sc", "src/sims_pars/simulation/simugroup.py::SimulationGroup.generate"]}
{"id": "C45", "title": "A fully floating simulation core separates chance from structure", "statement": "get_all_float_sc: the root core fixes exactly the nodes without randomness and floats exactly the others; every floating node has a sampler.", "quantifier": "every well-formed network", "why_tests_cant": "The space of graphs is infinite and the failure, if any, needs a particular shape of graph; a finite set of graphs cannot exclude it.", "anchors": ["src/sims_pars/simulation/fn.py::get_all_float_sc", "src/sims_pars/simulation/nodeset.py::NodeSet.inject_bn"]}
{"id": "C46", "title": "Every sampler can be sampled", "statement": "For every floating node the sampler blueprint reads only nodes that are fixed at that level or above (or exogenous), samples intermediate nodes in topological order and has every parent of every intermediate node available.", "quantifier": "every well-formed network and node set hierarchy", "why_tests_cant": "The space of graphs is infinite and the failure, if any, needs a particular shape of graph; a finite set of graphs cannot exclude it.", "anchors": ["src/sims_pars/simulation/nodeset.py::NodeSet._define_sampler_blueprints", "src/sims_pars/simulation/actor.py::CompoundActor.sample"]}
{"id": "C47", "title": "Parameter lookup is lexically scoped", "statement": "Reading a parameter of a core returns its own value, else the value of the nearest ancestor core holding it, else KeyError; iteration yields exactly these bindings with the nearest winning.", "quantifier": "every tree of cores of any depth", "why_tests_cant": "Depth is unbounded.", "anchors": ["src/sims_pars/simulation/parcore.py::ParameterCore.__getitem__", "src/sims_pars/simulation/parcore.py::ParameterCore.__iter__"]}
{"id": "C48", "title": "Breeding keeps the tree well formed", "statement": "Along every history of breed/remove operations nicknames of siblings are unique, a duplicate nickname raises ValueError and an unknown group KeyError without changing the tree, and find_descendant finds exactly the path of nicknames.", "quantifier": "every finite history", "why_tests_cant": "Histories are unbounded.", "anchors": ["src/sims_pars/simulation/parcore.py::ParameterCore.breed", "src/sims_pars/simulation/parcore.py::ParameterCore.find_descendant", "src/sims_pars/simulation/simugroup.py::SimulationGroup.breed"]}
{"id": "C49", "title": "An impulse on a core propagates through the whole subtree", "statement": "impulse(imp) on a core sets the intervened fixed values and re-renders exactly the affected fixed values in the core and all its descendants, so that values that were consistent with their definitions remain so, leaving everything else unchanged.", "quantifier": "every tree of cores, every intervention and random stream", "why_tests_cant": "Depth, networks and interventions are unbounded.", "anchors": ["src/sims_pars/simulation/parcore.py::ParameterCore.impulse", "src/sims_pars/simulation/simugroup.py::SimulationGroup.set_response"]}
{"id": "C50", "title": "An impulse that changes a core clears its probability", "statement": "After impulse any core of which a value has been written is no longer evaluated.", "quantifier": "every tree of cores and every intervention", "why_tests_cant": "Interventions are unbounded.", "anchors": ["src/sims_pars/simulation/parcore.py::ParameterCore._ParameterCore__set_response"]}
{"id": "C51", "title": "Frozen samplers are never stale", "statement": "After impulse every frozen sampler held by a core reflects the current values of its parents.", "quantifier": "every tree of cores, every history of impulses", "why_tests_cant": "Histories are unbounded.", "anchors": ["src/sims_pars/simulation/parcore.py::ParameterCore._ParameterCore__set_response", "src/sims_pars/simulation/actor.py::FrozenSingleActor.update"]}
{"id": "C52", "title": "Cloning and detaching a core work", "statement": "clone() of a root core returns a core with the same values; duplicate(nickname) of a child returns a sibling with the same values; detach_from_parent(collect_pars=True) keeps every readable value.", "quantifier": "every core", "why_tests_cant": "Must hold for every core.", "anchors": ["src/sims_pars/simulation/parcore.py::ParameterCore.clone", "src/sims_pars/simulation/parcore.py::ParameterCore.duplicate", "src/sims_pars/simulation/parcore.py::ParameterCore.detach_from_parent"]}
{"id": "C53", "title": "Sampling through an actor is side-effect free", "statement": "Sampling a single, frozen or compound actor never changes the parameter core it reads from, and compound sampling with mediators returns the same target value as without given the same random stream.", "quantifier": "every actor, core and random stream", "why_tests_cant": "Streams are unbounded.", "anchors": ["src/sims_pars/simulation/actor.py::CompoundActor.sample", "src/sims_pars/simulation/actor.py::CompoundActor.sample_with_mediators"]}
{"id": "C54", "title": "Monitor time is strictly increasing", "statement": "Along every history of keep/step/reset the recorded times are strictly increasing and all smaller than the current time; each record holds exactly the last value kept for each key since the previous step; a backward step raises KeyError and changes nothing; a step to the current time changes nothing.", "quantifier": "every finite history", "why_tests_cant": "Histories are unbounded.", "anchors": ["src/sims_pars/monitor.py::Monitor.step", "src/sims_pars/monitor.py::Monitor.keep"]}
{"id": "C55", "title": "Monitor.step(t) moves to t", "statement": "After step(t) returns normally the current time is t.", "quantifier": "every monitor state and time t", "why_tests_cant": "States are unbounded.", "anchors": ["src/sims_pars/monitor.py::Monitor.step"]}
{"id": "C56", "title": "Domain converters are inverse bijections", "statement": "For every domain (finite, half-infinite, infinite) uniform2value maps the unit interval into the domain, value2uniform maps the domain into the unit interval and each undoes the other.", "quantifier": "every domain with lower<upper and positive scale, all reals in it", "why_tests_cant": "Uncountably many inputs.", "anchors": ["src/sims_pars/fit/converter.py::ConverterFF", "src/sims_pars/fit/converter.py::ConverterFI", "src/sims_pars/fit/converter.py::ConverterIF", "src/sims_pars/fit/converter.py::ConverterII", "src/sims_pars/fit/converter.py::get_converter"]}
{"id": "C57", "title": "Domain converters are strictly increasing", "statement": "uniform2value and value2uniform of every domain are strictly increasing on the open interval, so intervals map to intervals.", "quantifier": "every domain with lower<upper and positive scale, all pairs of reals", "why_tests_cant": "Uncountably many inputs.", "anchors": ["src/sims_pars/fit/converter.py::get_converter"]}
{"id": "C58", "title": "Targets are read by a total decision table", "statement": "read_targets keeps every key exactly once in order, maps numbers to relative-error targets, {m,l,u} with l<m<u to range targets, {m[,error]} to error targets, strings to distributions, and refuses every other value.", "quantifier": "every source dict", "why_tests_cant": "Sources are unbounded.", "anchors": ["src/sims_pars/fit/targets/__init__.py::read_targets"]}
{"id": "C59", "title": "Distances are non-negative and zero exactly at the target", "statement": "calc_distance of a point target is >= 0 and 0 exactly when simulation equals the target.", "quantifier": "every target value, error and simulated value", "why_tests_cant": "Uncountably many inputs.", "anchors": ["src/sims_pars/fit/targets/single.py::DataPointError.calc_distance", "src/sims_pars/fit/targets/single.py::DataPointRange.calc_distance"]}
{"id": "C60", "title": "ABC rejection only accepts particles within the tolerance", "statement": "Every particle sample_posteriors of ApproxBayesCom collects has distance <= Eps; exactly n_collect are collected; Acceptance = n_collect / number of simulations run, in (0,1].", "quantifier": "every model, random stream and n_collect>=1", "why_tests_cant": "Streams are unbounded.", "anchors": ["src/sims_pars/fit/abcom/alg.py::sample_ess", "src/sims_pars/fit/abcom/alg.py::ApproxBayesCom.sample_posteriors"]}
{"id": "C61", "title": "ABC results do not depend on the execution mode", "statement": "With the same random draws the serial and the parallel mode of ApproxBayesCom return the same particles.", "quantifier": "every model and stream", "why_tests_cant": "Streams are unbounded.", "anchors": ["src/sims_pars/fit/abcom/alg.py::ApproxBayesCom.sample_posteriors"]}
{"id": "C62", "title": "SMC tolerance never increases", "statement": "Along every run of ApproxBayesComSMC the sequence of Eps is non-increasing and Stay counts the rounds since the last strict decrease.", "quantifier": "every model, random stream and setting", "why_tests_cant": "Runs are unbounded.", "anchors": ["src/sims_pars/fit/abc_smc/alg.py::ApproxBayesComSMC._a_round"]}
{"id": "C63", "title": "SMC particles with weight are within the tolerance", "statement": "After every round each particle with positive weight has distance < Eps; every particle collected by sample_posteriors has distance < Eps.", "quantifier": "every model without NaN distances, random stream and setting", "why_tests_cant": "Runs are unbounded.", "anchors": ["src/sims_pars/fit/abc_smc/alg.py::ApproxBayesComSMC.update_wts", "src/sims_pars/fit/abc_smc/alg.py::ApproxBayesComSMC.mcmc_proposal", "src/sims_pars/fit/abc_smc/alg.py::ApproxBayesComSMC.sample_posteriors"]}
{"id": "C64", "title": "SMC terminates and keeps its population size", "statement": "Provided each round completes, update() stops after at least one and at most max(1, max_round) rounds, Round counts them, and the population size stays n_iter.", "quantifier": "every model, stream and settings", "why_tests_cant": "Runs are unbounded.", "anchors": ["src/sims_pars/fit/abc_smc/alg.py::ApproxBayesComSMC.update", "src/sims_pars/fit/abc_smc/alg.py::ApproxBayesComSMC._check_termination"]}
{"id": "C65", "title": "SMC weights stay a probability vector", "statement": "After every completed round the weights are non-negative and sum to one.", "quantifier": "every model, stream and settings", "why_tests_cant": "Runs are unbounded.", "anchors": ["src/sims_pars/fit/abc_smc/alg.py::ApproxBayesComSMC.update_wts", "src/sims_pars/fit/abc_smc/alg.py::ApproxBayesComSMC.resample"]}
{"id": "C66", "title": "SMC can always proceed", "statement": "If all distances are finite a round never fails.", "quantifier": "every population of particles with finite distances", "why_tests_cant": "Populations are unbounded.", "anchors": ["src/sims_pars/fit/abc_smc/alg.py::ApproxBayesComSMC.resample", "src/sims_pars/fit/abc_smc/alg.py::ApproxBayesComSMC.update_wts"]}
{"id": "C67", "title": "resample keeps hypotheses and parameters aligned and drops impossible ones", "statement": "resample returns new_size (default: number of weights) draws; every returned hypothesis has a finite weight; parameters, if given, are drawn with the same indices; with no finite weight the input comes back unchanged.", "quantifier": "all weight lists, all draws", "why_tests_cant": "Streams are unbounded.", "anchors": ["src/sims_pars/util.py::resample"]}
{"id": "C68", "title": "HME search bounds are nested", "statement": "Along every run of BayesHistoryMatching the lower/upper bounds of each wave lie inside those of the previous wave and inside [0,1], and every emulated point lies inside the bounds of its wave.", "quantifier": "every model, stream and setting, any number of waves", "why_tests_cant": "Runs are unbounded.", "anchors": ["src/sims_pars/fit/hme/alg.py::BayesHistoryMatching._a_wave", "src/sims_pars/fit/hme/alg.py::BayesHistoryMatching._emulate"]}
{"id": "C69", "title": "HME keeps exactly the plausible points", "statement": "_keep_plausible keeps exactly the points with implausibility below the reported cut-off, which is at least the configured one, and always keeps at least the configured fraction min_acc.", "quantifier": "every list of emulated points", "why_tests_cant": "The space of point sets is infinite and the failure, if any, needs a particular shape of point set; a finite set of point sets cannot exclude it.", "anchors": ["src/sims_pars/fit/hme/alg.py::BayesHistoryMatching._keep_plausible"]}
{"id": "C70", "title": "HME accepts user sizes", "statement": "initialise works for every combination of user supplied n_sims and n_ems.", "quantifier": "all settings", "why_tests_cant": "Settings are unbounded.", "anchors": ["src/sims_pars/fit/hme/alg.py::BayesHistoryMatching.initialise"]}
{"id": "C71", "title": "Crossover conserves genes", "statement": "Shuffle crossover returns two loci dicts on exactly the domain nodes such that at each node the pair of child values is the pair of parent values (swapped or not); average crossover returns two equal children with values between the parents; parents are not modified.", "quantifier": "all parents, domains and random streams", "why_tests_cant": "Streams are unbounded.", "anchors": ["src/sims_pars/fit/ga/cross.py::ShuffleCrossover.crossover", "src/sims_pars/fit/ga/cross.py::AverageCrossover.crossover"]}
{"id": "C72", "title": "Mutation proposals stay inside the domain", "statement": "Every value proposed by the random-walk mutator lies strictly inside (Lower, Upper) of its node.", "quantifier": "all domains at least two machine epsilons wide, all streams", "why_tests_cant": "Streams are unbounded.", "anchors": ["src/sims_pars/fit/ga/mutate.py::RwMutator.propose"]}
{"id": "C73", "title": "Selection keeps the population size and only eligible members", "statement": "Tournament and importance selection return exactly as many members as given, each a clone of a member with finite likelihood, and a tournament winner is at least as fit as all its competitors.", "quantifier": "all populations and streams", "why_tests_cant": "Streams are unbounded.", "anchors": ["src/sims_pars/fit/ga/select.py::TourSelection.select", "src/sims_pars/fit/ga/select.py::ImpSelection.select"]}
{"id": "C74", "title": "Mutation replaces an individual by its own mutant", "statement": "In the mutation step the individual at position i is either kept or replaced by the proposal made from it.", "quantifier": "all populations and streams", "why_tests_cant": "Streams are unbounded.", "anchors": ["src/sims_pars/fit/ga/alg.py::GeneticAlg._GeneticAlg__mutation"]}
{"id": "C75", "title": "The genetic algorithm terminates", "statement": "update() stops after at most max_round+1 generations, and stops early only after more than max_stay consecutive generations without improvement.", "quantifier": "all streams and settings", "why_tests_cant": "Runs are unbounded.", "anchors": ["src/sims_pars/fit/ga/alg.py::GeneticAlg._GeneticAlg__termination"]}
{"id": "C76", "title": "Unknown settings are ignored, known ones take effect", "statement": "update_settings(**kw) changes exactly the settings named in kw that exist; the key set never changes along any history.", "quantifier": "every finite history of settings updates", "why_tests_cant": "Histories are unbounded.", "anchors": ["src/sims_pars/fit/base.py::Fitter.update_settings"]}
{"id": "C77", "title": "Exogenous parameters always win and served chromosomes are evaluated", "statement": "serve(p) returns a chromosome in which every exogenous parameter has the configured value, every other supplied value is kept, all nodes are present, and LogProb equals evaluate_nodes.", "quantifier": "every model, parameter dict and stream", "why_tests_cant": "Streams are unbounded.", "anchors": ["src/sims_pars/fit/base.py::DataModel.serve"]}
{"id": "C78", "title": "Particle distances are computed once and are the sum over targets", "statement": "calc_distance returns the sum of the target distances on first use and the same value on every later call; copies forget the cached distance but recompute the same value; JSON round trip preserves parameters, simulations and notes.", "quantifier": "every particle and history of calls", "why_tests_cant": "Histories are unbounded.", "anchors": ["src/sims_pars/fit/base.py::DataModel.calc_distance", "src/sims_pars/fit/base.py::Particle.copy", "src/sims_pars/fit/base.py::Particle.from_json"]}
{"id": "C79", "title": "Exported data is detached from the chromosome", "statement": "Writing to the dictionary returned by to_json, or to a chromosome rebuilt from it by from_json, never changes the original chromosome.", "quantifier": "every chromosome and write", "why_tests_cant": "Aliasing shows only for particular interleavings of writes; the claim is about all of them.", "anchors": ["src/sims_pars/bayesnet/chromosome.py::Chromosome.to_json", "src/sims_pars/bayesnet/chromosome.py::Chromosome.from_json"]}
{"id": "C80", "title": "A failed impulse does not leave a stale probability", "statement": "If impulse(new, bn) raises, the chromosome is either unchanged or no longer marked as evaluated.", "quantifier": "every well-formed network, chromosome and intervention", "why_tests_cant": "The failing renderings are the rare cases that tests do not enumerate.", "anchors": ["src/sims_pars/bayesnet/chromosome.py::Chromosome.impulse"]}
{"id": "C81", "title": "Draws use the random stream one after the other", "statement": "sample(bn, cond) makes exactly one draw for each node that was not given, in a topological order, and each draw starts from the random state the previous draw left.", "quantifier": "every well-formed network, cond and random stream", "why_tests_cant": "Reuse of a random state shows only as correlation between nodes, which no finite set of runs can exclude.", "anchors": ["src/sims_pars/fn.py::sample"]}
{"id": "C82", "title": "A workshop lists exactly what was registered in it", "statement": "At any time Atelier.list() gives the entries registered in that workshop, each once, and nothing else.", "quantifier": "every sequence of get_workshop, register, get_blueprint and list calls, whatever their outcome", "why_tests_cant": "The listing is checked right after registration, not after the workshop has been used to build objects.", "anchors": ["src/sims_pars/factory/craftstation.py::Atelier.list", "src/sims_pars/factory/craftstation.py::Atelier.get_blueprint"]}
{"id": "C83", "title": "triangle accepts its parameters in any order", "statement": "For any three numbers triangle(a, m, b) builds a distribution on the range of the three, with positive width and mode at the middle one, and refuses only three equal numbers.", "quantifier": "every three parameters", "why_tests_cant": "The six orders, ties, and degenerate ranges are a continuum of cases.", "anchors": ["src/sims_pars/prob.py::CreTriangle.create"]}
{"id": "C84", "title": "Samplers of sibling cores are independent", "statement": "Whatever samplers a core obtains, a sampler that a sibling obtained before draws the same value from the same random state.", "quantifier": "every hierarchy, pair of siblings and variables", "why_tests_cant": "Interference needs two siblings with different values of a parent and a particular order of calls.", "anchors": ["src/sims_pars/simulation/actor.py::Sampler.update", "src/sims_pars/simulation/parcore.py::ParameterCore.get_sampler", "src/sims_pars/simulation/simugroup.py::SimulationGroup.bear_actors"]}
{"id": "C85", "title": "A generated core has a value for every fixed variable", "statement": "A core that is generated without exception has a value for every fixed variable of its group.", "quantifier": "every network, group, exogenous values and random stream", "why_tests_cant": "The exceptions swallowed while generating depend on which inputs are left out, and the core that comes out looks well.", "anchors": ["src/sims_pars/simulation/simugroup.py::SimulationGroup.generate"]}
{"id": "C86", "title": "DeepLogPrior sums the priors of a hierarchy", "statement": "DeepLogPrior of a core is the sum of the log priors of the core and all its descendants.", "quantifier": "every hierarchy of cores", "why_tests_cant": "The attribute it sums is only set on some histories; tests look at one.", "anchors": ["src/sims_pars/simulation/parcore.py::ParameterCore.DeepLogPrior", "src/sims_pars/simulation/simugroup.py::SimulationGroup.set_response"]}
{"id": "C87", "title": "Sampler.sample(n) gives the next n draws", "statement": "sample(n) gives the next n draws of the sampler in order (the bare value for n at most 1), and raises exactly when one of those draws does.", "quantifier": "every sampler, integer n and random stream", "why_tests_cant": "Counts, order and exceptions in the middle of a batch range over all n and all samplers.", "anchors": ["src/sims_pars/simulation/actor.py::Sampler.sample"]}
{"id": "C88", "title": "A bred core computes its values from what it reads", "statement": "Every value of a generated or bred core that was not given is a draw from its definition on values as the core reads them: given, its own, or those of its ancestors.", "quantifier": "every network, hierarchy of groups, given values and random stream", "why_tests_cant": "Wrong sources show only when a value is both given and held above, or held by nobody.", "anchors": ["src/sims_pars/simulation/simugroup.py::SimulationGroup.generate", "src/sims_pars/bayesnet/loci.py::Loci.fill"]}
{"id": "C89", "title": "Converters keep values inside the domain", "statement": "For a domain with lower < upper, uniform2value maps every number of the unit interval to a value inside the domain, whatever location and scale the distribution reports.", "quantifier": "every domain, location, scale and number of the unit interval", "why_tests_cant": "A NaN arises only at one end of the interval and only for heavy-tailed priors.", "anchors": ["src/sims_pars/fit/converter.py::get_converter", "src/sims_pars/fit/converter.py::ConverterFI.uniform2value"]}
{"id": "C90", "title": "A target given by an error and the same target given by a range agree", "statement": "A data point with relative error e and the data point with the range m - e*m .. m + e*m have the same observation variance and the same distances.", "quantifier": "every mean, error and simulated value", "why_tests_cant": "Tests look at one form of a target; the factor between the two shows only when they are compared.", "anchors": ["src/sims_pars/fit/targets/single.py::DataPointError", "src/sims_pars/fit/targets/single.py::DataPointRange"]}
{"id": "C91", "title": "A chromosome survives its JSON form", "statement": "serve_from_json of the JSON form of a complete chromosome gives the same values and log probability and uses no random number.", "quantifier": "every network, exogenous parameters, chromosome and random state", "why_tests_cant": "Parallel and serial runs only agree if this holds on every chromosome.", "anchors": ["src/sims_pars/fit/base.py::DataModel.serve_from_json", "src/sims_pars/fit/base.py::DataModel.serve"]}
{"id": "C92", "title": "The search domain consists of the free parameters", "statement": "Domain lists exactly the free parameters of a data model.", "quantifier": "every network, exogenous parameters and random state", "why_tests_cant": "The two lists are computed by different code and differ only for some exogenous parameters and value types.", "anchors": ["src/sims_pars/fit/base.py::DataModel.Domain", "src/sims_pars/fit/base.py::DataModel.__init__"]}
{"id": "C93", "title": "The tolerance found by ABC can be used", "statement": "After a successful initialise with p_test in [0,1] the tolerance is a finite number with more than a p_test share of the test runs (less one) within it, and sampling with it never fails on an unbound variable.", "quantifier": "every model, random stream, size and p_test", "why_tests_cant": "The failure needs a NaN distance among the test runs.", "anchors": ["src/sims_pars/fit/abcom/alg.py::ApproxBayesCom.initialise", "src/sims_pars/fit/abcom/alg.py::sample_ess"]}
{"id": "C94", "title": "A particle without usable proposals keeps its place", "statement": "When none of the proposals that sample_mutation makes for a particle has a finite distance, the round completes with the particle itself.", "quantifier": "every model, particle and random stream", "why_tests_cant": "It needs more than twenty failing proposals in a row for one particle.", "anchors": ["src/sims_pars/fit/abc_smc/alg.py::sample_mutation", "src/sims_pars/fit/abc_smc/alg.py::ApproxBayesComSMC.mcmc_proposal"]}
{"id": "C95", "title": "The SMC posterior takes accepted proposals", "statement": "sample_posteriors collects the proposal made for a drawn particle when it is within the tolerance, and the particle otherwise.", "quantifier": "every model, state and random stream", "why_tests_cant": "Parents and proposals follow nearly the same distribution, so no test statistic on a sample tells them apart.", "anchors": ["src/sims_pars/fit/abc_smc/alg.py::ApproxBayesComSMC.sample_posteriors"]}
{"id": "C96", "title": "Step sizes are the weighted deviations", "statement": "calc_weighted_std gives a step size exactly to the parameters of the domain that differ between particles of positive weight, equal to the square root of their weighted variance, which is positive.", "quantifier": "every population and weights that form a probability vector", "why_tests_cant": "Populations are unbounded and the zero-variance case has measure zero.", "anchors": ["src/sims_pars/fit/abc_smc/alg.py::ApproxBayesComSMC.calc_weighted_std"]}
{"id": "C97", "title": "A proposal keeps what it does not move", "statement": "A proposal has the parent's value plus a step for each parameter with a step size, and the parent's value for every other parameter of the domain.", "quantifier": "every model, parent, step sizes and random stream", "why_tests_cant": "The difference only shows for a parameter on which the whole population agrees.", "anchors": ["src/sims_pars/fit/abc_smc/alg.py::mutate", "src/sims_pars/fit/abc_smc/alg.py::sample_mutation", "src/sims_pars/fit/base.py::DataModel.serve"]}
{"id": "C98", "title": "HME emulators are asked where they were trained", "statement": "The inputs at which the emulators predict are in the coordinates they were trained in: a point that was simulated is emulated at the input it was trained with.", "quantifier": "every model, wave and random stream", "why_tests_cant": "A Gaussian process fits any coordinates without complaint; the effect is only a loss of accuracy.", "anchors": ["src/sims_pars/fit/hme/alg.py::BayesHistoryMatching._simulate", "src/sims_pars/fit/hme/alg.py::BayesHistoryMatching._emulate", "src/sims_pars/fit/base.py::DataModel.flatten"]}
{"id": "C99", "title": "HME runs the configured number of waves", "statement": "A fit performs max(1, max_wave) waves and stops; the state counts them and holds at least one plausible point.", "quantifier": "every model, setting and random stream", "why_tests_cant": "max_wave is unbounded and waves are random.", "anchors": ["src/sims_pars/fit/hme/alg.py::BayesHistoryMatching.update", "src/sims_pars/fit/hme/alg.py::BayesHistoryMatching._check_termination"]}
{"id": "C100", "title": "HME posteriors lie between the reported bounds", "statement": "Every parameter of every particle that sample_posteriors collects lies between the bounds reported for it, and there are n_collect particles.", "quantifier": "every model with proper domains, every run and random stream", "why_tests_cant": "Runs and streams are unbounded.", "anchors": ["src/sims_pars/fit/hme/alg.py::BayesHistoryMatching.sample_posteriors", "src/sims_pars/fit/converter.py::get_converter"]}
{"id": "C101", "title": "HME default sizes follow the model", "statement": "When n_sims and n_ems are not given, every fit uses the defaults computed from the number of parameters of its model.", "quantifier": "every sequence of models fitted with one fitter", "why_tests_cant": "It needs two models of different size in one session.", "anchors": ["src/sims_pars/fit/hme/alg.py::BayesHistoryMatching.initialise"]}
{"id": "C102", "title": "Mutation scales are positive", "statement": "After set_scales every parameter of the domain has a positive scale, also when all individuals agree on it or their interquartile range is zero.", "quantifier": "every population", "why_tests_cant": "The degenerate cases have measure zero for continuous parameters.", "anchors": ["src/sims_pars/fit/ga/mutate.py::RwMutator.set_scales"]}
{"id": "C103", "title": "Selection follows the target", "statement": "The selection of the genetic algorithm uses the fitness named by the setting target, as the search for the best individual does.", "quantifier": "every population and setting", "why_tests_cant": "The default target hides it, and with another target only the distribution of the survivors changes.", "anchors": ["src/sims_pars/fit/ga/alg.py::GeneticAlg._GeneticAlg__selection", "src/sims_pars/fit/ga/alg.py::GeneticAlg._GeneticAlg__find_elitism", "src/sims_pars/fit/ga/select.py::TourSelection.select"]}
{"id": "C104", "title": "The best individual is kept", "statement": "The fitness of the best individual reported never falls from one generation to the next (elitism).", "quantifier": "every objective, population and random stream", "why_tests_cant": "Whether the best is lost depends on the random stream.", "anchors": ["src/sims_pars/fit/ga/alg.py::GeneticAlg.update", "src/sims_pars/fit/ga/alg.py::GeneticAlg._GeneticAlg__find_elitism"]}
{"id": "C105", "title": "The evidence reported by resample is the log of the mean weight", "statement": "For log weights that are finite or minus infinity, the last value returned by resample is the logarithm of the mean of the weights they stand for: if no size was requested, exp of it times the number of weights is the sum of exp of the finite ones; in particular it is minus infinity when all weights are impossible, and it does not depend on how many hypotheses are drawn.", "quantifier": "all lists of weights, hypotheses, parameters, requested sizes and random draws", "why_tests_cant": "The test looks at the mean for one list of three finite weights without a requested size; lists with impossible weights or another size are not tried.", "anchors": ["src/sims_pars/util.py::resample"]}
{"id": "C106", "title": "The acceptance reported by ABC is particles per simulation", "statement": "Whenever sample_posteriors of the ABC rejection fitter returns, the note Acceptance is the number of particles returned divided by the number of simulations that were run since it was called, rejected ones included.", "quantifier": "all models, tolerances, sample sizes, execution modes and random draws", "why_tests_cant": "A test would have to count the simulator's calls for every possible pattern of rejections.", "anchors": ["src/sims_pars/fit/abcom/alg.py::sample_ess", "src/sims_pars/fit/abcom/alg.py::ApproxBayesCom.sample_posteriors"]}
{"id": "C107", "title": "Cumulative hazards and their inverses undo each other", "statement": "For positive parameters cum_hazard and inv_cum_hazard of the exponential and the Weibull hazard map [0, inf) to itself, are strictly increasing, start at zero and undo each other.", "quantifier": "all positive parameters and all non-negative times and hazards", "why_tests_cant": "The repository has no test of this module.", "anchors": ["src/sims_pars/data/reg/hazard.py::ExponentialHazard", "src/sims_pars/data/reg/hazard.py::WeibullHazard"]}
{"id": "C108", "title": "mean and std of a hazard are those of the time to event", "statement": "mean() and std() of a baseline hazard are the expectation and the standard deviation of the time whose cumulative hazard it is.", "quantifier": "all positive parameters", "why_tests_cant": "The values are limits of averages; only the rate 1 is tried in the example.", "anchors": ["src/sims_pars/data/reg/hazard.py::ExponentialHazard.mean", "src/sims_pars/data/reg/hazard.py::ExponentialHazard.std", "src/sims_pars/data/reg/hazard.py::WeibullHazard.mean", "src/sims_pars/data/reg/hazard.py::WeibullHazard.std"]}
{"id": "C109", "title": "mean and std of a hazard distribution are those of its samples", "statement": "HazardDistribution.mean() and std() are the expectation and the standard deviation of what sample() draws.", "quantifier": "all positive parameters and risk ratios", "why_tests_cant": "The examples use the rate 1 only.", "anchors": ["src/sims_pars/data/reg/hazard.py::HazardDistribution.mean", "src/sims_pars/data/reg/hazard.py::HazardDistribution.std", "src/sims_pars/data/reg/hazard.py::HazardDistribution.sample", "src/sims_pars/data/reg/survival.py::CoxRegression.expectation"]}
{"id": "C110", "title": "Sampled times have the hazard asked for", "statement": "A time drawn by HazardDistribution.sample is not negative and exceeds t with probability exp(-RiskRatio * cum_hazard(t)); sample(n) applies the same map to n exponential numbers.", "quantifier": "all positive parameters, risk ratios, times and numbers of draws", "why_tests_cant": "It is a statement about a probability.", "anchors": ["src/sims_pars/data/reg/hazard.py::HazardDistribution.sample"]}
{"id": "C111", "title": "logpdf of a hazard distribution is a log density", "statement": "HazardDistribution.logpdf(v) is (up to the step of the numerical derivative) the log density of the times that sample() draws.", "quantifier": "all positive parameters, risk ratios and times", "why_tests_cant": "The repository has no test of this module.", "anchors": ["src/sims_pars/data/reg/hazard.py::HazardDistribution.logpdf", "src/sims_pars/data/reg/hazard.py::ZeroInflatedHazardDistribution.logpdf"]}
{"id": "C112", "title": "Zero inflated times", "statement": "A draw of ZeroInflatedHazardDistribution is zero with probability Prob and a draw of the time to event otherwise, draw by draw, and sample(n) gives n of them.", "quantifier": "all distributions, numbers of draws and random numbers", "why_tests_cant": "It is a statement about a probability.", "anchors": ["src/sims_pars/data/reg/hazard.py::ZeroInflatedHazardDistribution.sample"]}
{"id": "C113", "title": "The linear predictor is the sum of the effects", "statement": "LinearCombination.predict returns the sum of the effects of its regressors exactly when every variable is there and has an effect; it depends neither on the order of the regressors nor on other variables.", "quantifier": "all lists of regressors and all cases", "why_tests_cant": "The repository has no test of this module.", "anchors": ["src/sims_pars/data/reg/linear.py::LinearCombination.predict"]}
{"id": "C114", "title": "Regressors survive their JSON form", "statement": "A regressor that was read from a dictionary can be written with to_json, and reading that gives the same regressor.", "quantifier": "all dictionaries that can be read", "why_tests_cant": "The repository has no test of this module.", "anchors": ["src/sims_pars/data/reg/linear.py::Boolean", "src/sims_pars/data/reg/linear.py::Continuous", "src/sims_pars/data/reg/linear.py::Categorical", "src/sims_pars/data/reg/linear.py::LinearCombination._LinearCombination__append_regressor"]}
{"id": "C115", "title": "A categorical regressor takes the labels", "statement": "The effect of a label of a categorical regressor is the coefficient at the position of that label.", "quantifier": "all categorical regressors and labels", "why_tests_cant": "The repository has no test of this module.", "anchors": ["src/sims_pars/data/reg/linear.py::Categorical.effect"]}
{"id": "C116", "title": "Expectations of logistic regressions are probabilities", "statement": "The expectation of a logistic regression lies strictly between 0 and 1, increases with the linear predictor and is 1/2 exactly at 0; that of a multinomial regression is a list of positive numbers that sum to one.", "quantifier": "all regressions and cases", "why_tests_cant": "The repository has no test of this module.", "anchors": ["src/sims_pars/data/reg/glm.py::LogisticRegression.expectation", "src/sims_pars/data/reg/glm.py::MultinomialLogisticRegression.expectation"]}
{"id": "C117", "title": "Odds of a multinomial regression", "statement": "In a multinomial logistic regression the odds between two classes are the exponential of the difference of their linear predictors.", "quantifier": "all regressions, cases and pairs of classes", "why_tests_cant": "The repository has no test of this module.", "anchors": ["src/sims_pars/data/reg/glm.py::MultinomialLogisticRegression.expectation"]}
{"id": "C118", "title": "A Poisson regression predicts counts", "statement": "PoissonRegression.predict draws a count whose expectation is expectation(xs), the exponential of the linear predictor.", "quantifier": "all regressions and cases", "why_tests_cant": "The repository has no test of this module.", "anchors": ["src/sims_pars/data/reg/glm.py::PoissonRegression.predict", "src/sims_pars/data/reg/glm.py::PoissonRegression.expectation"]}
{"id": "C119", "title": "A multinomial regression predicts a label", "statement": "predict draws exactly one of the labels, and the sampler gives each label the probability of its class; when the number of labels differs from the number of classes predict raises ValueError.", "quantifier": "all regressions, cases and random streams", "why_tests_cant": "The repository has no test of this module.", "anchors": ["src/sims_pars/data/reg/glm.py::MultinomialLogisticRegression.predict", "src/sims_pars/data/reg/glm.py::MultinomialLogisticRegression.get_sampler"]}
{"id": "C120", "title": "Cox regressions have proportional hazards", "statement": "The probability that a time drawn for a case exceeds t is the baseline probability raised to the exponential of the linear predictor.", "quantifier": "all positive baselines, regressors, cases and times", "why_tests_cant": "It is a statement about a probability.", "anchors": ["src/sims_pars/data/reg/survival.py::CoxRegression.get_sampler", "src/sims_pars/data/reg/survival.py::CoxRegression._rr"]}
{"id": "C121", "title": "Transitions go to states of positive weight", "statement": "TransitionMatrix.sample_next(current) returns a state that has positive weight in the row of the current state; weights that sum to zero or have mixed signs raise ValueError, an unknown state raises KeyError.", "quantifier": "all matrices, states and random numbers", "why_tests_cant": "The repository has no test of this module.", "anchors": ["src/sims_pars/data/static.py::TransitionMatrix.sample_next", "src/sims_pars/data/static.py::TransitionMatrix.__getitem__", "src/sims_pars/prob.py::CategoricalRV.sample"]}
{"id": "C122", "title": "TransitionMatrix.sample draws a successor for every current state", "statement": "sample(n, current=k) and sample(n, currents=ks) return successors of the given states.", "quantifier": "all matrices, numbers of draws, states and random numbers", "why_tests_cant": "The repository has no test of this module.", "anchors": ["src/sims_pars/data/static.py::TransitionMatrix.sample"]}
{"id": "C123", "title": "A probability table gives every combination its share of the weight", "statement": "The probability with which a ConditionalProbabilityTable draws a combination of its indices is the weight of the rows with that combination divided by the weight of all rows, and the combination is returned column by column.", "quantifier": "all tables and combinations", "why_tests_cant": "The repository has no test of this module.", "anchors": ["src/sims_pars/data/static.py::ConditionalProbabilityTable.__init__", "src/sims_pars/data/static.py::ConditionalProbabilityTable.__call__"]}
{"id": "C124", "title": "Marginalising adds up the weights", "statement": "marginalise(index) is the table of the other indices in which every combination has the summed weight of the source's rows that have it.", "quantifier": "all tables, indices and combinations", "why_tests_cant": "The repository has no test of this module.", "anchors": ["src/sims_pars/data/static.py::ConditionalProbabilityTable.marginalise"]}
{"id": "C125", "title": "Conditioning restricts to the rows that agree", "statement": "condition(**kwargs) is the table of the other indices in which every combination has its share of the weight of those rows that agree with all the keywords.", "quantifier": "all tables, keywords and combinations", "why_tests_cant": "The repository has no test of this module.", "anchors": ["src/sims_pars/data/static.py::ConditionalProbabilityTable.condition"]}
{"id": "C126", "title": "A time series gives the value of the nearest recorded time", "statement": "TimeSeries(t) with the default kind gives the value recorded for a time that is closest to t, the earlier one halfway between two.", "quantifier": "all tables of times and values and all times", "why_tests_cant": "The repository has no test of this module.", "anchors": ["src/sims_pars/data/timeseries.py::TimeSeries.__call__", "src/sims_pars/data/timeseries.py::TimeSeries.__init__"]}
{"id": "C127", "title": "A series of vectors reads all columns off one row", "statement": "TimeSeriesVector(t) has exactly the columns asked for, and their values are those of one and the same row.", "quantifier": "all tables, columns and times", "why_tests_cant": "The repository has no test of this module.", "anchors": ["src/sims_pars/data/timeseries.py::TimeSeriesVector.__call__", "src/sims_pars/data/timeseries.py::TimeSeriesVector.__init__"]}
{"id": "C128", "title": "Probabilities that change with time are those of the nearest time", "statement": "TimeSeriesProbabilityTable(t) draws a category of positive weight from the row of the nearest time, for rows of distinct times in order.", "quantifier": "all such tables with non-negative weights that are not all zero, all times and random numbers", "why_tests_cant": "The repository has no test of this module.", "anchors": ["src/sims_pars/data/timeseries.py::TimeSeriesProbabilityTable.__call__", "src/sims_pars/data/timeseries.py::TimeSeriesProbabilityTable.__init__"]}
{"id": "C129", "title": "Lee-Carter rates are positive and log-linear", "statement": "LeeCarter.get_rate(t, a) is positive, its logarithm is Alpha[a] + kappa * Beta[a] with the kappa of the nearest time, unknown ages raise KeyError, and LeeCarter(t) has these rates for exactly the known ages.", "quantifier": "all tables of times in order, all tables of distinct ages, all times and ages", "why_tests_cant": "The repository has no test of this module.", "anchors": ["src/sims_pars/data/timeseries.py::LeeCarter.get_rate", "src/sims_pars/data/timeseries.py::LeeCarter.__call__"]}
{"id": "C130", "title": "draw stops at the first particle whose likelihood is not infinite", "statement": "draw(obj) makes between one and twenty-one evaluations, all but the last of an infinite likelihood; it returns their number with the last particle, or with the empty particle after twenty-one.", "quantifier": "all objectives, particles and random states", "why_tests_cant": "The repository has no test of this module; the loops depend on random numbers and on the caller's objective.", "anchors": ["src/sims_pars/fitting/util.py::draw", "src/sims_pars/fitting/base.py::AbsObjective.evaluate"]}
{"id": "C131", "title": "draw returns a valid particle when one of its tries finds it", "statement": "When one of the at most twenty-one particles that draw evaluates has a likelihood that is not infinite, draw returns it.", "quantifier": "all objectives, particles and random states", "why_tests_cant": "The repository has no test of this module; the loops depend on random numbers and on the caller's objective.", "anchors": ["src/sims_pars/fitting/util.py::draw"]}
{"id": "C132", "title": "mutate_and_draw returns a mutant", "statement": "What mutate_and_draw returns after at most twenty evaluations has the values of the original shifted by normal deviates.", "quantifier": "all objectives, particles, scales and random states", "why_tests_cant": "The repository has no test of this module; the loops depend on random numbers and on the caller's objective.", "anchors": ["src/sims_pars/fitting/util.py::mutate_and_draw", "src/sims_pars/fitting/util.py::mutate"]}
{"id": "C133", "title": "mutate_and_draw ends", "statement": "mutate_and_draw ends whenever the prior and the likelihood can be evaluated.", "quantifier": "all objectives, particles, scales and random states", "why_tests_cant": "The repository has no test of this module; the loops depend on random numbers and on the caller's objective.", "anchors": ["src/sims_pars/fitting/util.py::mutate_and_draw"]}
{"id": "C134", "title": "Mutants drawn in parallel are shifted in the scaled parameters only", "statement": "mutate_and_draw_parallel returns, for each particle and in order, one whose parameters in scale are shifted by normal deviates and whose other parameters are those of the particle, with prior and likelihood that are not infinite, or gives up after twenty-one evaluations.", "quantifier": "all objectives, particles, scales and random states", "why_tests_cant": "The repository has no test of this module; the loops depend on random numbers and on the caller's objective.", "anchors": ["src/sims_pars/fitting/util.py::__mutate_and_draw", "src/sims_pars/fitting/util.py::mutate_and_draw_parallel"]}
{"id": "C135", "title": "A likelihood is calculated once, and only for particles of finite prior", "statement": "serve_and_evaluate calculates at most one likelihood, none for a particle of infinite prior, and none for a particle that was evaluated before.", "quantifier": "all objectives, particles and random states", "why_tests_cant": "The repository has no test of this module; the loops depend on random numbers and on the caller's objective.", "anchors": ["src/sims_pars/fitting/util.py::serve_and_evaluate", "src/sims_pars/fitting/util.py::serve_and_evaluate_parallel", "src/sims_pars/fitting/base.py::AbsObjective.evaluate"]}
{"id": "C136", "title": "A particle survives the way through JSON", "statement": "serve_from_json(p.to_json()) has the values, the prior and the likelihood of p.", "quantifier": "all particles and objectives that serve the values they are given", "why_tests_cant": "The repository has no test of this module; the loops depend on random numbers and on the caller's objective.", "anchors": ["src/sims_pars/fitting/base.py::AbsObjective.serve_from_json", "src/sims_pars/fitting/util.py::draw_parallel", "src/sims_pars/bayesnet/chromosome.py::Chromosome.to_json"]}
{"id": "C137", "title": "PriorSampling collects the requested number of particles and counts the evaluations", "statement": "collect() ends normally with n_collect particles drawn from the prior, and N_Eval is the number of the evaluations.", "quantifier": "all objectives, numbers of particles and random states, with and without parallel workers", "why_tests_cant": "The repository has no test of this module; the loops depend on random numbers and on the caller's objective.", "anchors": ["src/sims_pars/fitting/fitter.py::PriorSampling.collect", "src/sims_pars/fit/results.py::ParameterSet"]}
{"id": "C138", "title": "The free parameters of a network are its random, non-exogenous floats", "statement": "An AbsObjectiveBN can be made of every network, and FreeParameters are the random nodes, in order, that are not exogenous and have a float as value.", "quantifier": "all networks, exogenous parameters and random states", "why_tests_cant": "The repository has no test of this module; the loops depend on random numbers and on the caller's objective.", "anchors": ["src/sims_pars/fitting/base.py::AbsObjectiveBN.__init__", "src/sims_pars/fitting/base.py::AbsObjectiveBN.evaluate_prior", "src/sims_pars/bayesnet/chromosome.py::Chromosome"]}
{"id": "C139", "title": "Exogenous parameters keep their values", "statement": "Whatever is asked for, sample_prior and serve give the exogenous parameters the values that the objective was made with, and serve gives the other parameters the values asked for.", "quantifier": "all networks, exogenous parameters, requests and random states", "why_tests_cant": "The repository has no test of this module; the loops depend on random numbers and on the caller's objective.", "anchors": ["src/sims_pars/fitting/base.py::AbsObjectiveBN.serve", "src/sims_pars/fitting/base.py::AbsObjectiveBN.sample_prior"]}
{"id": "C140", "title": "Names draw from the distributions they stand for", "statement": "gamma(shape, rate), exp(rate), norm(mean, sd), chisq(df), beta(shape1, shape2) and unif(min, max) have the laws that these names and parameters have in R, with the defaults for what is not given.", "quantifier": "all parameters that are accepted", "why_tests_cant": "The parameters range over real numbers, and that two laws are equal cannot be seen from samples.", "anchors": ["src/sims_pars/prob.py::CreGamma.create", "src/sims_pars/prob.py::CreExp.create", "src/sims_pars/prob.py::CreNorm.create", "src/sims_pars/prob.py::CreChi2.create", "src/sims_pars/prob.py::CreBeta.create", "src/sims_pars/prob.py::CreUniform.create"]}
{"id": "C141", "title": "The logarithm of lnorm is normal with meanlog and sdlog", "statement": "The logarithm of what lnorm(meanlog, sdlog) draws is normal with mean meanlog and standard deviation sdlog.", "quantifier": "all parameters that are accepted", "why_tests_cant": "The parameters range over real numbers, and that two laws are equal cannot be seen from samples.", "anchors": ["src/sims_pars/prob.py::CreLogNorm.create"]}
{"id": "C142", "title": "The reciprocal of invgamma is gamma with the same shape and rate", "statement": "The reciprocal of what invgamma(a, rate) draws has the gamma distribution with shape a and that rate.", "quantifier": "all parameters that are accepted", "why_tests_cant": "The parameters range over real numbers, and that two laws are equal cannot be seen from samples.", "anchors": ["src/sims_pars/prob.py::CreInvGamma.create"]}
{"id": "C143", "title": "Only parameters that have a distribution are accepted", "statement": "Every distribution that is created has parameters for which its density exists; the others raise.", "quantifier": "all names and parameters", "why_tests_cant": "The parameters range over real numbers.", "anchors": ["src/sims_pars/prob.py::CreUniform.create", "src/sims_pars/prob.py::CreGamma.create", "src/sims_pars/prob.py::CreLogNorm.create", "src/sims_pars/prob.py::CreInvGamma.create"]}
{"id": "C144", "title": "Interval is where the density lives", "statement": "The log density is a number for every value inside of Interval and minus infinity for every value outside.", "quantifier": "all continuous distributions with parameters that have a density, and all values", "why_tests_cant": "The parameters and values range over real numbers.", "anchors": ["src/sims_pars/prob.py::SpDouble.Interval", "src/sims_pars/prob.py::SpDouble.logpdf"]}
{"id": "C145", "title": "binom and pois count", "statement": "binom(size, prob) has the law of the number of successes in that many independent trials, pois(lam) the Poisson law; both refuse what is out of range, and Interval holds exactly the integers with positive probability.", "quantifier": "all parameters and integers", "why_tests_cant": "The parameters range over real numbers, and that two laws are equal cannot be seen from samples.", "anchors": ["src/sims_pars/prob.py::CreBinom.create", "src/sims_pars/prob.py::CrePois.create", "src/sims_pars/prob.py::SpInteger.Interval", "src/sims_pars/prob.py::SpInteger.logpdf"]}
{"id": "C146", "title": "Samplers of regressions have the expectation as mean", "statement": "get_sampler of a linear, a logistic and a Poisson regression is the normal, the Bernoulli and the Poisson law whose mean is expectation(xs); predict of a linear regression draws from it one number for n up to one, and n otherwise.", "quantifier": "all regressions and cases", "why_tests_cant": "The values range over real numbers, and that a law has a mean cannot be seen from samples.", "anchors": ["src/sims_pars/data/reg/linear.py::LinearRegression.get_sampler", "src/sims_pars/data/reg/linear.py::LinearRegression.predict", "src/sims_pars/data/reg/glm.py::LogisticRegression.get_sampler", "src/sims_pars/data/reg/glm.py::PoissonRegression.get_sampler"]}
{"id": "C147", "title": "find_baseline reads every kind of baseline", "statement": "A complete description of type exp, weibull or empirical gives that hazard with its parameters; an unknown type and a missing key raise KeyError.", "quantifier": "all descriptions", "why_tests_cant": "The repository has no test of this module.", "anchors": ["src/sims_pars/data/reg/survival.py::find_baseline", "src/sims_pars/data/reg/hazard.py::EmpiricalHazard.__init__", "src/sims_pars/data/reg/survival.py::CoxRegression.__init__"]}
{"id": "C148", "title": "The expectation of a survival regression is the mean of its predictions", "statement": "expectation(xs) of a Cox and of a zero inflated Cox regression is the mean of what predict(xs) draws.", "quantifier": "all regressions and cases", "why_tests_cant": "The values range over real numbers, and that a law has a mean cannot be seen from samples.", "anchors": ["src/sims_pars/data/reg/survival.py::CoxRegression.expectation", "src/sims_pars/data/reg/survival.py::CoxRegression.predict", "src/sims_pars/data/reg/survival.py::ZeroInflatedCoxRegression.expectation", "src/sims_pars/data/reg/survival.py::ZeroInflatedCoxRegression.predict"]}
{"id": "C149", "title": "Empirical draws stay between the smallest and the largest value", "statement": "An EmpiricalRV is made of as many weights as values, at least one; sample(n) gives n numbers between the ends of Interval, which are the smallest and the largest value.", "quantifier": "all values, weights and random numbers", "why_tests_cant": "Values and weights range over all numbers and orders.", "anchors": ["src/sims_pars/prob.py::EmpiricalRV.__init__", "src/sims_pars/prob.py::EmpiricalRV.sample", "src/sims_pars/prob.py::EmpiricalRV.Interval"]}
{"id": "C150", "title": "Empirical draws have the shares of the weights as distribution function", "statement": "A draw of EmpiricalRV is at most one of the values with the probability that is the share of the weights of all values up to it.", "quantifier": "all values and weights", "why_tests_cant": "The values range over real numbers, and that a law has a mean cannot be seen from samples.", "anchors": ["src/sims_pars/prob.py::EmpiricalRV.__init__", "src/sims_pars/prob.py::EmpiricalRV.sample"]}
{"id": "C151", "title": "logpdf of an empirical distribution is a log density", "statement": "EmpiricalRV.logpdf is the logarithm of the interpolated weights, and minus infinity outside of Interval.", "quantifier": "all values and weights", "why_tests_cant": "Values and weights range over all numbers.", "anchors": ["src/sims_pars/prob.py::EmpiricalRV.logpdf"]}
{"id": "C152", "title": "mean and std of an empirical distribution are those of its draws", "statement": "EmpiricalRV.mean() and std() are the mean and the standard deviation of what sample draws.", "quantifier": "all values and weights", "why_tests_cant": "The values range over real numbers, and that a law has a mean cannot be seen from samples.", "anchors": ["src/sims_pars/prob.py::EmpiricalRV.mean", "src/sims_pars/prob.py::EmpiricalRV.std"]}
{"id": "C153", "title": "The SIR model keeps its population and derives its outputs from it", "statement": "At every state an explicit integrator visits, the three groups of EpiSIR sum to 1000; solve returns exactly Inc_t, Prev_t and Rec_t for t from 2 to 7, with Prev the infectious share, Inc the product of beta, the susceptible share and Prev, and Rec the product of gamma and Prev.", "quantifier": "all rates, step sizes and Runge-Kutta coefficients", "why_tests_cant": "Integrators choose steps freely; tests see a handful of rates and one integrator.", "anchors": ["src/sims_pars/fit/toys.py::EpiSIR.solve"]}
{"id": "C154", "title": "The SIR equations have one solution, and it is an epidemic", "statement": "The initial value problem of EpiSIR.solve has one solution on the interval it is solved on; along it the groups stay positive, the susceptible fall, the removed rise, and beta (s + i) - gamma n log s is constant; all simulated values are positive, prevalences below one and incidences at most beta/4.", "quantifier": "all positive rates and all times in [0, 10]", "why_tests_cant": "Existence, uniqueness and monotonicity are statements about a continuum of times and rates.", "anchors": ["src/sims_pars/fit/toys.py::EpiSIR.solve"]}
{"id": "C155", "title": "The targets of the SIR example identify its rates", "statement": "For the targets EpiSIR(be, ga) makes, the distance of a simulation is a finite number of at least 0, and it is 0 exactly for the rates the targets were made with.", "quantifier": "all rates", "why_tests_cant": "Identification quantifies over all pairs of rates.", "anchors": ["src/sims_pars/fit/toys.py::EpiSIR.__init__", "src/sims_pars/fit/toys.py::EpiSIR.simulate", "src/sims_pars/fit/toys.py::EpiSIR.solve", "src/sims_pars/fit/targets/__init__.py::read_targets"]}
{"id": "C156", "title": "The best simulations of the count examples are those that meet the counts", "statement": "The distance of the BetaBin of fit/toys.py is at least 0 and 0 exactly when both counts are met; link_likelihood of the BetaBin of fitting/cases.py is at most 0 and 0 exactly when both counts are met.", "quantifier": "all observed and simulated counts", "why_tests_cant": "Counts range over all numbers, including zero.", "anchors": ["src/sims_pars/fit/toys.py::BetaBin.__init__", "src/sims_pars/fitting/cases.py::BetaBin.link_likelihood", "src/sims_pars/fitting/cases.py::BetaBin.simulate"]}
{"id": "C157", "title": "The normal example simulates sample means and rewards meeting the observed ones", "statement": "The value Normal2 simulates is the mean of n normal draws, so it is normal around mu with the n-th part of the variance; its distance is at least 0 and 0 exactly when both observed means are met.", "quantifier": "all means, deviations and sample sizes", "why_tests_cant": "That a statistic has a law cannot be seen from draws.", "anchors": ["src/sims_pars/fit/toys.py::Normal2.__init__", "src/sims_pars/fit/toys.py::Normal2.simulate"]}
{"id": "C158", "title": "The likelihood of NormalTwo is highest at the sample means", "statement": "link_likelihood of NormalTwo is the logarithm of the joint normal density of both samples, and among all pairs of means it is highest at the two sample means, and only there.", "quantifier": "all non-empty samples and all means", "why_tests_cant": "The maximum is over a plane of means.", "anchors": ["src/sims_pars/fitting/cases.py::NormalTwo.link_likelihood", "src/sims_pars/fitting/cases.py::NormalTwo.simulate"]}
{"id": "C159", "title": "Siblings", "statement": "get_sibling(nickname, exo) adds one core to the children of the parent, of the same group, with the given values, or raises and adds nothing, ValueError exactly if the nickname is taken; asked for with the random state and values a core was bred with, it gives that core under another name.", "quantifier": "all networks, hierarchies reached by histories of operations, nicknames, values and random states", "why_tests_cant": "Hierarchies and histories are unbounded.", "anchors": ["src/sims_pars/simulation/parcore.py::ParameterCore.get_sibling", "src/sims_pars/simulation/parcore.py::ParameterCore.breed", "src/sims_pars/simulation/simugroup.py::SimulationGroup.breed"]}
{"id": "C160", "title": "Prototypes", "statement": "get_prototype(group, exo) returns what breeding a child of that group would have added, under the name 'prototype', and leaves the hierarchy as it is; groups that are not listed raise KeyError.", "quantifier": "all hierarchies, groups, values and random states", "why_tests_cant": "The comparison is with another run of the program from the same random state.", "anchors": ["src/sims_pars/simulation/parcore.py::ParameterCore.get_prototype", "src/sims_pars/simulation/simugroup.py::SimulationGroup.breed"]}
{"id": "C161", "title": "Free parameters", "statement": "find_free_parameters lists the random roots of the network, each once.", "quantifier": "all networks, node sets and exogenous values", "why_tests_cant": "Networks are unbounded; the result depends on the whole graph.", "anchors": ["src/sims_pars/simulation/fn.py::find_free_parameters", "src/sims_pars/simulation/fn.py::get_all_fixed_sc"]}
{"id": "C162", "title": "Pseudo cores take the shape of cores", "statement": "Under the same operations, a hierarchy of PseudoParameterCore has the nicknames and groups of the hierarchy of ParameterCore.", "quantifier": "all histories of operations", "why_tests_cant": "Histories are unbounded.", "anchors": ["src/sims_pars/simulation/parcore.py::PseudoParameterCore.breed", "src/sims_pars/simulation/parcore.py::PseudoParameterCore.remove_children", "src/sims_pars/simulation/parcore.py::PseudoParameterCore.impulse", "src/sims_pars/simulation/parcore.py::ParameterCore.breed"]}
{"id": "C163", "title": "Addresses of pseudo cores", "statement": "find_descendant of a pseudo core finds the core in the place where that of a ParameterCore does at the same address, and a detached pseudo core is no longer found.", "quantifier": "all hierarchies and addresses", "why_tests_cant": "Addresses are arbitrary text.", "anchors": ["src/sims_pars/simulation/parcore.py::PseudoParameterCore.find_descendant", "src/sims_pars/simulation/parcore.py::PseudoParameterCore.detach_from_parent", "src/sims_pars/simulation/parcore.py::ParameterCore.find_descendant"]}
{"id": "C164", "title": "Moving to another simulation core", "statement": "After reset_sc(sc) the core and all its descendants belong to the groups of their names in sc, and nothing else has changed.", "quantifier": "all hierarchies and simulation cores", "why_tests_cant": "Depth and width of the hierarchy are unbounded.", "anchors": ["src/sims_pars/simulation/parcore.py::ParameterCore.reset_sc", "src/sims_pars/simulation/parcore.py::PseudoParameterCore.reset_sc"]}
{"id": "C165", "title": "Samplers of children", "statement": "get_child_samplers(group) gives the actors that the children of that group share.", "quantifier": "all hierarchies and groups", "why_tests_cant": "Whether actors exist depends on the history of the hierarchy.", "anchors": ["src/sims_pars/simulation/parcore.py::ParameterCore.get_child_samplers", "src/sims_pars/simulation/parcore.py::ParameterCore.get_actors", "src/sims_pars/simulation/simugroup.py::SimulationGroup.put_shared_actors"]}
{"id": "C166", "title": "Particles of a fit belong together", "statement": "In every state that fitting a data model with the SMC algorithm reaches, and in the posteriors that it and rejection ABC return, every particle has the exogenous values, a value for every node and nothing else, values that follow the definitions (other than of the random roots), the log density of these values, a simulation run on exactly these values, and the distance of this simulation to the data.", "quantifier": "all data models, targets, simulators, settings, numbers of rounds and random streams, for networks in which no variable is named like a function used in a definition", "why_tests_cant": "The runs are random and unbounded, and the statement is about every particle of every state.", "anchors": ["src/sims_pars/fit/abc_smc/alg.py::sample_fin", "src/sims_pars/fit/abc_smc/alg.py::sample_mutation", "src/sims_pars/fit/abc_smc/alg.py::mutate", "src/sims_pars/fit/abc_smc/alg.py::ApproxBayesComSMC.initialise", "src/sims_pars/fit/abc_smc/alg.py::ApproxBayesComSMC.update", "src/sims_pars/fit/abc_smc/alg.py::ApproxBayesComSMC.sample_posteriors", "src/sims_pars/fit/abcom/alg.py::sample_ess", "src/sims_pars/fit/abcom/alg.py::ApproxBayesCom.sample_posteriors", "src/sims_pars/fit/base.py::DataModel.serve", "src/sims_pars/fit/base.py::DataModel.calc_distance"]}
{"id": "C167", "title": "Continuing from given parameters", "statement": "After set_parents(ps), every particle of every state that the SMC algorithm reaches holds the values of one of ps.", "quantifier": "all data models, parents, settings, numbers of rounds and random streams", "why_tests_cant": "The runs are random and unbounded.", "anchors": ["src/sims_pars/fit/abc_smc/alg.py::ApproxBayesComSMC.set_parents", "src/sims_pars/fit/abc_smc/alg.py::sample_fin_cont", "src/sims_pars/fit/abc_smc/alg.py::ApproxBayesComSMC.initialise", "src/sims_pars/fit/abc_smc/alg.py::ApproxBayesComSMC.mcmc_proposal", "src/sims_pars/bayesnet/chromosome.py::Chromosome.impulse"]}
{"id": "C168", "title": "A fitter can always be made", "statement": "The script of the idle model is read without an exception as a completed network without nodes, and its data model has no free parameters, an empty domain and a prior that gives the empty chromosome with log-probability zero; so constructing a fitter, or closing it, never fails.", "quantifier": "all character classes in which the letters of Empty are word characters, semantics of expressions and random states", "why_tests_cant": "The script goes through the general reader, whose lines are refused one by one; a test tries one run-time.", "anchors": ["src/sims_pars/fit/base.py::IdleModel.__init__", "src/sims_pars/fit/base.py::Fitter.__init__", "src/sims_pars/fit/base.py::Fitter.close", "src/sims_pars/fit/base.py::DataModel.__init__", "src/sims_pars/bayesnet/bn.py::bayes_net_from_script"]}
{"id": "C169", "title": "Settings in force during a fit", "statement": "During a fit, a setting is what the call of fit gives for it, else what the constructor was given, else its default; unknown settings are ignored.", "quantifier": "all fitters, settings and sequences of fits, also ones that raise", "why_tests_cant": "It ranges over all histories of a fitter object.", "anchors": ["src/sims_pars/fit/base.py::Fitter.update_settings", "src/sims_pars/fit/base.py::Fitter.fit", "src/sims_pars/fit/base.py::Fitter.__init__", "src/sims_pars/fit/abc_smc/alg.py::ApproxBayesComSMC.DefaultSettings", "src/sims_pars/fit/hme/alg.py::BayesHistoryMatching.DefaultSettings", "src/sims_pars/fit/hme/alg.py::BayesHistoryMatching.initialise"]}
{"id": "C170", "title": "The trace of a posterior", "statement": "The trace that sample_posteriors keeps has exactly one row for each round of the fit, from round 0 to the round of the state, in order, the last with the tolerance of the state.", "quantifier": "all models, settings, numbers of rounds, sequences of fits and random streams", "why_tests_cant": "The number of rounds is unbounded and fits can follow each other in one object.", "anchors": ["src/sims_pars/fit/abc_smc/alg.py::ApproxBayesComSMC.initialise", "src/sims_pars/fit/abc_smc/alg.py::ApproxBayesComSMC.update", "src/sims_pars/fit/abc_smc/alg.py::ApproxBayesComSMC.sample_posteriors", "src/sims_pars/monitor.py::Monitor.keep", "src/sims_pars/monitor.py::Monitor.step", "src/sims_pars/fit/results.py::ParameterSet.keep", "src/sims_pars/fit/results.py::ParameterSet.append"]}
{"id": "C171", "title": "Whose particles a posterior has", "statement": "After a call of fit, the state of the fitter is one that its algorithm reaches on the model given to this call with the settings in force, so that the posterior sampled from it belongs to this model.", "quantifier": "all models, settings, sequences of fits and random streams, also fits that raise", "why_tests_cant": "A state left by an earlier fit is noticed only on runs that fail.", "anchors": ["src/sims_pars/fit/base.py::Fitter.fit", "src/sims_pars/fit/base.py::Fitter.attach", "src/sims_pars/fit/abc_smc/alg.py::ApproxBayesComSMC.initialise", "src/sims_pars/fit/abc_smc/alg.py::ApproxBayesComSMC.update", "src/sims_pars/fit/abc_smc/alg.py::ApproxBayesComSMC.sample_posteriors", "src/sims_pars/fit/hme/alg.py::BayesHistoryMatching.initialise", "src/sims_pars/fit/hme/alg.py::BayesHistoryMatching.update"]}
{"id": "C172", "title": "The operators in use are the ones the settings name", "statement": "At any time the crossover and the selector of a genetic algorithm are those that its settings name.", "quantifier": "all settings given to the constructor and to any sequence of fits", "why_tests_cant": "Settings can change in any later call.", "anchors": ["src/sims_pars/fit/ga/alg.py::GeneticAlg.__init__", "src/sims_pars/fit/ga/alg.py::GeneticAlg.DefaultSettings", "src/sims_pars/fitting/fitter.py::Fitter.fit", "src/sims_pars/fitting/fitter.py::Fitter.update_settings"]}
{"id": "C173", "title": "Names that are not there", "statement": "Looking up a name gives its last definition; a name that was neither defined nor used as a parent is a KeyError in a network, and a key that was not kept since the last step is a KeyError in a monitor.", "quantifier": "all sequences of definitions and of entries kept, and all names", "why_tests_cant": "Any name can be asked for after any history.", "anchors": ["src/sims_pars/bayesnet/bn.py::BayesianNetwork.__getitem__", "src/sims_pars/bayesnet/bn.py::BayesianNetwork.append_loci", "src/sims_pars/monitor.py::Monitor.__getitem__", "src/sims_pars/monitor.py::Monitor.keep", "src/sims_pars/monitor.py::Monitor.step"]}
{"id": "C174", "title": "Simulations that lack an output", "statement": "A particle whose simulation lacks one of the targets is never given a distance, a likelihood, an implausibility or a mean squared error: each of them raises KeyError and caches nothing.", "quantifier": "all data models, particles, targets and random states", "why_tests_cant": "A missing output may be any of any number of targets.", "anchors": ["src/sims_pars/fit/base.py::DataModel.flatten", "src/sims_pars/fit/base.py::DataModel.calc_distance", "src/sims_pars/fit/base.py::DataModel.calc_likelihood", "src/sims_pars/fit/hme/alg.py::eval_implausibility", "src/sims_pars/fit/hme/alg.py::eval_mse", "src/sims_pars/fit/hme/alg.py::BayesHistoryMatching._simulate"]}
{"id": "C175", "title": "When the selectors of the genetic algorithm refuse", "statement": "A tournament refuses with an AssertionError, before any random draw, exactly when no more individuals have a finite likelihood than it has rivals, the importance selection when no more than five have; what is selected depends on the likelihoods through their finiteness and otherwise on the posteriors only.", "quantifier": "all populations, numbers of rivals and random streams", "why_tests_cant": "It ranges over all populations and random streams.", "anchors": ["src/sims_pars/fit/ga/select.py::TourSelection.select", "src/sims_pars/fit/ga/select.py::ImpSelection.select", "src/sims_pars/fit/ga/alg.py::GeneticAlg.selection"]}
{"id": "C176", "title": "Individuals that lack a parameter", "statement": "An individual that lacks a parameter of the domain cannot be crossed, mutated or used for the scales: a KeyError is raised, whatever the other individuals.", "quantifier": "all domains, individuals and random streams", "why_tests_cant": "The missing parameter can be any of any number.", "anchors": ["src/sims_pars/fit/ga/cross.py::AverageCrossover.crossover", "src/sims_pars/fit/ga/cross.py::ShuffleCrossover.crossover", "src/sims_pars/fit/ga/mutate.py::RwMutator.set_scales", "src/sims_pars/fit/ga/mutate.py::RwMutator.propose"]}
{"id": "C177", "title": "Proposals that are refused are drawn again", "statement": "When a proposal is refused with a ValueError it is drawn again without counting as an evaluation; any other exception ends the search and is passed on; an objective of a network that can be sampled fails with an AttributeError.", "quantifier": "all objectives, scales, numbers of evaluations made and random states", "why_tests_cant": "The refusals depend on the draws.", "anchors": ["src/sims_pars/fitting/util.py::mutate_and_draw", "src/sims_pars/fitting/util.py::__mutate_and_draw", "src/sims_pars/fitting/util.py::mutate", "src/sims_pars/fitting/base.py::AbsObjectiveBN.__init__"]}
{"id": "C178", "title": "Quantiles of infinite values", "statement": "The quantile of values without NaN, some of them infinite, is infinite or lies between two of the values; so the cut-off of history matching keeps the share of the points that was asked for.", "quantifier": "all lists of finite and infinite values and all orders", "why_tests_cant": "The interpolation fails only for some orders next to infinite values.", "anchors": ["src/sims_pars/fit/hme/alg.py::BayesHistoryMatching._keep_plausible"]}
{"id": "C179", "title": "Evaluating a call", "statement": "evaluate_function(parse_function(\"f(a1, .., k1=e1, ..)\"), loc) gives the function f together with the values of a1, .., e1, .. under loc and the mathematical functions, in order, each under its key; it succeeds exactly when every argument has a value, and otherwise raises the exception of the first argument that has none. The blueprint made of the parsed call is that of the evaluated call.", "quantifier": "all calls with any nesting of arguments, all environments and run-time functions", "why_tests_cant": "tests evaluate one call with five arguments", "anchors": ["src/sims_pars/util.py:165-188", "src/sims_pars/util.py:207-268"]}
{"id": "C180", "title": "The JSON form of a call", "statement": "to_json(loc) of a parsed call has for each argument its value, or its source text when the evaluation lacks a name; other exceptions are raised. When all arguments have values it agrees with the JSON form of the evaluated call, and an argument that is left as text has a name that is neither given nor a known function.", "quantifier": "all calls, all environments", "why_tests_cant": "tests look at the JSON of one call", "anchors": ["src/sims_pars/util.py:131-139", "src/sims_pars/util.py:194-199", "src/sims_pars/util.py:253-258"]}
{"id": "C181", "title": "is_executable tells whether an expression can be executed", "statement": "is_executable(loc) holds exactly when executing the expression under loc does not run into an undefined name", "quantifier": "all expressions, environments and function tables", "why_tests_cant": "no test calls is_executable", "anchors": ["src/sims_pars/util.py:145-146"]}
{"id": "C182", "title": "Functions added to the table of mathematical functions", "statement": "After any sequence of add_math_func calls, a call of f in an expression applies the last callable that was added under f; what cannot be called is ignored; expressions that do not mention an added name have the outcome they had before", "quantifier": "all histories of additions, all expressions and environments", "why_tests_cant": "the global table is changed by histories of calls", "anchors": ["src/sims_pars/util.py:44-51", "src/sims_pars/util.py:137-139"]}
{"id": "C183", "title": "Data functions", "statement": "A data function that was accepted by add_data_func stays registered whatever is offered later, has a sampler (find_data_sampler), and can be used to define random variables", "quantifier": "all histories of additions, all definitions", "why_tests_cant": "the global table is changed by histories of calls; no test uses data functions", "anchors": ["src/sims_pars/util.py:57-65", "src/sims_pars/bayesnet/loci.py:114-132"]}
{"id": "C184", "title": "Case distinctions", "statement": "ifelse(c, a, b) has the value of a when c is true and of b when it is false; step(k, c, a, b) has the value of a when k < c and of b otherwise", "quantifier": "all expressions and environments", "why_tests_cant": "tests evaluate one condition", "anchors": ["src/sims_pars/util.py:16-21", "src/sims_pars/util.py:39-40"]}
{"id": "C185", "title": "Operators by name", "statement": "get_crossover, get_mutator and get_selector make the operator that is named, with the number that is given for a tournament (3 by default), with and without parentheses; anything else - an unknown name, a number that is not positive, arguments that the operator does not take - is refused", "quantifier": "all texts and all ways to parse them, all run-times", "why_tests_cant": "tests use a few spellings", "anchors": ["src/sims_pars/fit/ga/cross.py:44-63", "src/sims_pars/fit/ga/mutate.py:57-68", "src/sims_pars/fit/ga/select.py:63-84", "src/sims_pars/factory/craftstation.py:22-65"]}
{"id": "C186", "title": "The evaluations that ABC-SMC reports are the simulations it ran", "statement": "The number reported as Eval with the first particles, and with every later round, is the number of simulations run for them, whatever was drawn again because of an infinite distance, and without the proposals that have no prior probability; so the column Eval of the trace adds up to the simulations of the whole fit", "quantifier": "all models, settings, parents, random streams and numbers of rounds", "why_tests_cant": "tests check that a fit ends; the number of simulations differs from run to run", "anchors": ["src/sims_pars/fit/abc_smc/alg.py:39-90", "src/sims_pars/fit/abc_smc/alg.py:122-158", "src/sims_pars/fit/abc_smc/alg.py:174-200", "src/sims_pars/fit/abc_smc/alg.py:230-265"]}
{"id": "C187", "title": "Why resampling fails", "statement": "util.resample raises ValueError only for plain weights with a negative one or without a positive one, IndexError only when the hypotheses are fewer than the weights or the parameters are fewer and one of them has a finite weight, and nothing else; hypotheses beyond the last weight are left out silently, and so are the parameters when none of them has a finite weight", "quantifier": "all weights, hypotheses, parameters, sizes and random streams", "why_tests_cant": "tests resample lists of equal length with good weights", "anchors": ["src/sims_pars/util.py:76-106"]}
{"id": "C188", "title": "Missing entries are KeyErrors", "statement": "A proposal of ABC-SMC fails exactly when its parent lacks a parameter that has a step size, and a conditional probability table exactly when a row lacks a column; both with KeyError", "quantifier": "all parents, step sizes, tables and columns", "why_tests_cant": "tests use complete particles and tables", "anchors": ["src/sims_pars/fit/abc_smc/alg.py:64-66", "src/sims_pars/data/static.py:44-60"]}
{"id": "C189", "title": "When a data model has a likelihood", "statement": "A particle with outputs has a log-likelihood exactly if every target is a distribution, and it is minus the distance; otherwise AttributeError is raised and the particle is unchanged", "quantifier": "all data models, targets and outputs", "why_tests_cant": "tests ask for the distance only", "anchors": ["src/sims_pars/fit/base.py:116-150", "src/sims_pars/fit/targets/single.py:11-75"]}
{"id": "C190", "title": "The label of a posterior names its algorithm", "statement": "The attribute Algorithm of what sample_posteriors returns names the algorithm that made it: ABC-SMC, HME or ABC", "quantifier": "all fitters, histories of fits, models and random streams", "why_tests_cant": "tests do not look at the label", "anchors": ["src/sims_pars/fit/abcom/alg.py:90-119", "src/sims_pars/fit/hme/alg.py:176-201", "src/sims_pars/fit/abc_smc/alg.py:296-332"]}
{"id": "C191", "title": "A posterior of rejection ABC is of the model fitted last", "statement": "What sample_posteriors returns after any history of fits has the requested number of particles, each within the tolerance found on the model of the last fit, and its notes are that tolerance, the number of particles, and their number divided by that of the simulations", "quantifier": "all histories of fits and closings, models, settings and random streams", "why_tests_cant": "tests fit one model once", "anchors": ["src/sims_pars/fit/abcom/alg.py:39-119", "src/sims_pars/fit/base.py:175-217"]}
{"id": "C192", "title": "A fit of the sampler of priors fills its collector and ends", "statement": "After any history, a fit of PriorSampling ends normally with n_collect particles of the model it was given and the number of evaluations in N_Eval", "quantifier": "all histories of fits and closings, objectives, settings and random streams", "why_tests_cant": "there is no test of it", "anchors": ["src/sims_pars/fitting/fitter.py:14-132", "src/sims_pars/fit/results.py:6-37"]}
{"id": "C193", "title": "A simulation that fails is a failed try", "statement": "For an objective with simulations, a simulation that gives None counts as a try without success, and every particle drawn has the likelihood of its own simulation", "quantifier": "all objectives, simulations, links and random streams", "why_tests_cant": "there is no test of it", "anchors": ["src/sims_pars/fitting/base.py:110-123", "src/sims_pars/fitting/util.py:11-24", "src/sims_pars/fitting/util.py:98-101"]}
{"id": "C194", "title": "A clone is a copy core by core", "statement": "Where clone succeeds the core has no parent, and the clone made with children mirrors the hierarchy core by core, with the nicknames, group names, attributes LogPrior and LogLikelihood and given values of the originals; made without children it copies the core alone", "quantifier": "all hierarchies, models, groups, options and random streams", "why_tests_cant": "tests never clone: without a log likelihood set from outside every call raises", "anchors": ["src/sims_pars/simulation/parcore.py:245-268", "src/sims_pars/simulation/simucore.py:55-63"]}
{"id": "C195", "title": "A clone of a complete hierarchy draws nothing", "statement": "A clone with children of a hierarchy in which every core has all fixed values of its group leaves the random stream alone, has the values of the original, and its log prior is the sum of the log densities of the fixed values", "quantifier": "all complete hierarchies with unique nicknames under a parent", "why_tests_cant": "tests never clone", "anchors": ["src/sims_pars/simulation/parcore.py:245-268", "src/sims_pars/simulation/simugroup.py:30-60"]}
{"id": "C196", "title": "All samplers of a core are the samplers of its actors one by one", "statement": "get_samplers leaves the actors, the random stream and the outcome that get_sampler for each name of list_actors in turn would; the names listed are those of the blueprints of the group, and get_sampler of any other name raises KeyError", "quantifier": "all hierarchies, actors, values and random streams", "why_tests_cant": "tests ask for samplers one by one", "anchors": ["src/sims_pars/simulation/parcore.py:62-117", "src/sims_pars/simulation/actor.py:90-135"]}
{"id": "C197", "title": "A pseudo core is a mapping", "statement": "What a pseudo core contains, counts and yields it also returns by key and puts into a dictionary", "quantifier": "all sequences of assignments", "why_tests_cant": "tests never give a pseudo core a value", "anchors": ["src/sims_pars/simulation/parcore.py:271-465", "src/sims_pars/bayesnet/chromosome.py:8-40"]}
{"id": "C198", "title": "The groups of a simulation core are found by the names of the node sets", "statement": "sc[name] and sc.get(name) return a group exactly if a node set of the hierarchy has that name, with the nodes and blueprints of a node set of that name, and raise KeyError otherwise", "quantifier": "all hierarchies of node sets and names", "why_tests_cant": "tests use one hierarchy of two groups", "anchors": ["src/sims_pars/simulation/simucore.py:8-40", "src/sims_pars/simulation/nodeset.py:1-200"]}
{"id": "C199", "title": "sample draws from the law that evaluate_nodes evaluates", "statement": "Without given random variables, sample draws an assignment with the probability whose log evaluate_nodes reports for it, and a chromosome with the probability whose log it carries", "quantifier": "all networks of discrete random variables whose distributions draw what their log densities say, all assignments", "why_tests_cant": "tests draw a few samples and cannot compare frequencies with log densities of all assignments", "anchors": ["src/sims_pars/fn.py:8-82"]}
{"id": "C200", "title": "sample given values draws from the conditional law", "statement": "Given values of random variables, sample draws an assignment of the others with its probability conditional on what is given", "quantifier": "all networks of discrete random variables, given values and assignments", "why_tests_cant": "tests never look at frequencies", "anchors": ["src/sims_pars/fn.py:8-40"]}
{"id": "C201", "title": "Rejection ABC draws from the conditioned prior", "statement": "sample_ess returns a parameter drawn from the prior conditioned on a distance within the tolerance; the number of simulations is geometric and independent of it; it ends with probability 1 when some prior mass is within the tolerance", "quantifier": "all priors, measurable acceptance regions and finite tolerances", "why_tests_cant": "a test sees finitely many draws and cannot wait for a loop that does not end", "anchors": ["src/sims_pars/fit/abcom/alg.py:28-36"]}
{"id": "C202", "title": "The posterior of rejection ABC is an independent sample", "statement": "The particles collected by sample_posteriors are independent draws from the prior conditioned on a distance within the tolerance, whichever branch collects them; the distances of the test runs are independent draws of the distance conditioned on being finite", "quantifier": "all priors, tolerances, sizes and both branches", "why_tests_cant": "independence cannot be seen from one run", "anchors": ["src/sims_pars/fit/abcom/alg.py:17-119"]}
{"id": "C203", "title": "resample draws in proportion to the weights", "statement": "resample draws independently, each time an element with its share of the total finite weight (of their exponentials with log=True)", "quantifier": "all finite or partly infinite weights with a positive sum, all elements, all sizes", "why_tests_cant": "tests see one draw of each", "anchors": ["src/sims_pars/util.py:76-106"]}
{"id": "C204", "title": "ABC-SMC resamples in proportion to the weights", "statement": "When the effective sample size is below the threshold, resample draws independently, each time a particle with its share of the positive weights, and gives all of them the same weight", "quantifier": "all populations, weights and thresholds", "why_tests_cant": "tests see one draw of each", "anchors": ["src/sims_pars/fit/abc_smc/alg.py:213-230"]}
{"id": "C205", "title": "Importance selection draws in proportion to the exponential of the fitness", "statement": "Importance selection draws independently, each time a member of finite likelihood with its share of the exponentials of the fitness", "quantifier": "all populations of more than 5 such members without NaN or +inf", "why_tests_cant": "tests never select by importance", "anchors": ["src/sims_pars/fit/ga/select.py:38-60"]}
{"id": "C206", "title": "The density of a distribution object is the probability of its draws", "statement": "exp of logpdf of a category or a constant is the probability that sample returns it", "quantifier": "all weights of categories, all constants", "why_tests_cant": "tests never compare frequencies with densities", "anchors": ["src/sims_pars/prob.py:135-222", "src/sims_pars/data/static.py::TransitionMatrix.sample_next"]}
{"id": "C207", "title": "sample_minimally has the law of sample", "statement": "sample_minimally, which draws only the nodes needed for the included ones, gives these the same joint law, for every given values, as sample, which draws all nodes", "quantifier": "all networks whose nodes take countably many values and never fail on them, all included and given nodes, all events", "why_tests_cant": "tests look at keys only; equality in law cannot be seen from a few draws", "anchors": ["src/sims_pars/fn.py:8-59"]}
{"id": "C208", "title": "ABC-SMC moves leave the prior below the tolerance invariant", "statement": "The moves of mcmc_proposal leave the target of the round, the prior restricted to distances below the tolerance, as it is: particles drawn from it are drawn from it again after the move", "quantifier": "all populations, step sizes, tolerances, proposal laws and refusal chances", "why_tests_cant": "the bias of a Markov kernel is a statement about distributions; tests look at a handful of particles", "anchors": ["src/sims_pars/fit/abc_smc/alg.py:62-91", "src/sims_pars/fit/abc_smc/alg.py:230-265"]}
{"id": "C209", "title": "Search points become possible values", "statement": "Every point of the unit interval is converted, through the domain that a distribution describes of itself, into a value that the distribution can take", "quantifier": "all distributions of prob.py, all their parameters, all numbers between 0 and 1", "why_tests_cant": "the converters are chosen by ends that each kind of distribution reports in its own way; tests use uniform and normal parameters", "anchors": ["src/sims_pars/prob.py:78-251", "src/sims_pars/fit/base.py:87-94", "src/sims_pars/fit/converter.py:99-110", "src/sims_pars/fit/hme/alg.py:79"]}
{"id": "C210", "title": "The first particles of ABC-SMC are an independent sample", "statement": "Without parents, initialise of ABC-SMC ends with probability one with particles that are independent draws from the prior conditioned on a finite distance, and gives them all the same weight", "quantifier": "all priors, all distances, all sizes, all measurable sets of parameters", "why_tests_cant": "the law of a loop of rejections is not visible in any single run", "anchors": ["src/sims_pars/fit/abc_smc/alg.py:33-48", "src/sims_pars/fit/abc_smc/alg.py:122-158"]}
{"id": "C211", "title": "Shuffle crossover exchanges each gene with probability one half", "statement": "For every set of pairs of values per gene, the chance that the children have their genes in them is the product over the genes of the average of both orders of the genes of the parents", "quantifier": "all parents, all domains without repeated names, all sets of pairs", "why_tests_cant": "the exchange is drawn; a test sees one draw and cannot see independence", "anchors": ["src/sims_pars/fit/ga/cross.py:25-38"]}
{"id": "C212", "title": "draw samples the prior given a finite likelihood, or gives up after twenty draws", "statement": "A particle of draw has the law of the prior conditioned on a finite likelihood, except that it is the empty particle with the probability that twenty draws of the prior all have an infinite likelihood", "quantifier": "all priors, all likelihoods, all measurable sets of particles", "why_tests_cant": "the twenty-first try is made and thrown away, which no test notices, and the law of a loop is not visible in any single run", "anchors": ["src/sims_pars/fitting/util.py:11-24", "src/sims_pars/fitting/base.py:45-49"]}
{"id": "C213", "title": "The first population of the genetic algorithm is an independent sample", "statement": "The individuals of initialise are independent and have the law of draw", "quantifier": "all sizes above zero, all laws of draws, all measurable sets", "why_tests_cant": "independence is not visible in any single run", "anchors": ["src/sims_pars/fit/ga/alg.py:53-59", "src/sims_pars/fit/ga/alg.py:77-89"]}
{"id": "C214", "title": "The law of tournament selection", "statement": "Tournaments are independent, and the winner of one is no fitter than a given number with the probability that all of K members, drawn without replacement from those with a finite likelihood, are no fitter", "quantifier": "all populations with more than K members of finite likelihood, all K above zero, all lists of numbers", "why_tests_cant": "the competitors are drawn; a test sees one tournament", "anchors": ["src/sims_pars/fit/ga/select.py:19-38"]}
{"id": "C215", "title": "The law of the tries of a draw and of PriorSampling", "statement": "The number of tries that a draw reports and its particle have the law of independent draws from the prior repeated until the likelihood is finite, for at most twenty; what PriorSampling collects in serial mode are independent draws", "quantifier": "all laws of the prior, all likelihoods, all numbers of particles, all measurable sets", "why_tests_cant": "a test sees single draws; the joint law needs all of them", "anchors": ["src/sims_pars/fitting/util.py:11-24", "src/sims_pars/fitting/fitter.py:107-132"]}
{"id": "C216", "title": "The table of what a monitor recorded", "statement": "Trajectories raises KeyError exactly when nothing was recorded; else it has one row for each round in order, indexed by its number, one column for each name told in some round, and in each cell what was told last in that round, or a missing value", "quantifier": "all histories of keep, step and reset; for the cells all sequences of rounds", "why_tests_cant": "histories and names are unbounded", "anchors": ["src/sims_pars/monitor.py:49-68"]}
{"id": "C217", "title": "A fit of the genetic algorithm", "statement": "A fit draws a first population and, when it ends, leaves the last population and a trace with one row for each generation", "quantifier": "all models, settings, objects and random states", "why_tests_cant": "settings, models and generators are unbounded", "anchors": ["src/sims_pars/fit/ga/alg.py:53-89", "src/sims_pars/fit/ga/alg.py:120-149", "src/sims_pars/fitting/fitter.py:76-82"]}
{"id": "C218", "title": "The law of first particles from parents", "statement": "With parents, each first particle of ABC-SMC is drawn independently of the others from the mixture, with equal shares for the parents, of the priors that follow a parent, each conditioned on a finite distance; all have the same weight", "quantifier": "all non-empty lists of parents, all laws of the priors and distances, all numbers of particles, all measurable sets", "why_tests_cant": "a test sees single runs; the joint law needs all of them", "anchors": ["src/sims_pars/fit/abc_smc/alg.py:37-49", "src/sims_pars/fit/abc_smc/alg.py:122-158"]}
{"id": "C219", "title": "The law of the posterior of ABC-SMC", "statement": "What sample_posteriors returns are particles of the last population, drawn independently, each with its share of the total of the positive weights times the chance that a mutation of it ends; what the mutations give does not matter", "quantifier": "all states with real weights of which one is positive, all laws of proposals and distances, all numbers of particles", "why_tests_cant": "a test sees single runs; the joint law needs all of them", "anchors": ["src/sims_pars/fit/abc_smc/alg.py:63-91", "src/sims_pars/fit/abc_smc/alg.py:296-332"]}
{"id": "C220", "title": "The law of the posterior of a data model", "statement": "On a data model whose network has countably many outcomes, the particles that rejection ABC collects are independent, and each has the parameters of an outcome with probability exp(LogProb) times the chance that its simulation is within the tolerance, divided by the sum of this over all outcomes; the first particles of ABC-SMC have the same law with the chance of a finite distance", "quantifier": "all networks with countably many outcomes and ideal distributions, all simulations and tolerances, all numbers of particles", "why_tests_cant": "a test sees single runs; the joint law needs all of them, and it composes the sampler of the network, the log probabilities, the simulation and the rejection loop", "anchors": ["src/sims_pars/fit/base.py:101-131", "src/sims_pars/fn.py:8-25", "src/sims_pars/fn.py:62-75", "src/sims_pars/fit/abcom/alg.py:28-36", "src/sims_pars/fit/abc_smc/alg.py:24-34"]}
{"id": "C221", "title": "The law of a generated core", "statement": "A core, with or without cores above it, is generated with given values of its fixed variables with the product of their probabilities under their definitions, read on these values and on what the core takes from above; its log probability is the sum of the log densities, and is the log of that chance when none of its random variables is given", "quantifier": "all networks with ideal distributions, all groups in an order that respects parents, all values taken from above, all assignments", "why_tests_cant": "a test sees single runs; the joint law needs all of them", "anchors": ["src/sims_pars/simulation/simugroup.py:24-60", "src/sims_pars/simulation/parcore.py:227-234"]}
{"id": "C222", "title": "The laws of samplers", "statement": "A compound sampler draws its mediators and its own variable with the product of their probabilities on what it reads, and its own variable alone with the sum of these over the ways the mediators come out; a single sampler draws by its definition on what it reads, and a frozen one by its definition on the values it reflects, whatever it is passed", "quantifier": "all networks with ideal distributions, all samplers that read what they need, all values", "why_tests_cant": "a test sees single draws", "anchors": ["src/sims_pars/simulation/actor.py:18-26", "src/sims_pars/simulation/actor.py:34-45", "src/sims_pars/simulation/actor.py:58-60", "src/sims_pars/simulation/actor.py:74-88", "src/sims_pars/simulation/nodeset.py:20-27"]}
{"id": "C223", "title": "A core and its sampler draw as the network does", "statement": "Generating a core and drawing from a compound sampler with its mediators gives all the values with the product of their probabilities; when the core without a parent and the sampler cover the network, this is the probability with which `sample` of the network draws the assignment", "quantifier": "all networks with ideal distributions, all groups and samplers, all assignments", "why_tests_cant": "the agreement of two procedures in law cannot be seen in single runs", "anchors": ["src/sims_pars/simulation/simugroup.py:24-60", "src/sims_pars/simulation/parcore.py:227-234", "src/sims_pars/simulation/actor.py:18-26", "src/sims_pars/simulation/actor.py:34-45", "src/sims_pars/simulation/actor.py:58-60", "src/sims_pars/simulation/actor.py:74-88", "src/sims_pars/fn.py:8-25"]}
{"id": "C224", "title": "Cores bred one under another draw as the network does", "statement": "Cores generated one under another have given values of their fixed variables with the product of the probabilities of these; when they fix the whole network this is the probability with which `sample` draws the assignment", "quantifier": "all networks with ideal distributions, all lines of groups of every length, all assignments", "why_tests_cant": "the agreement of two procedures in law cannot be seen in single runs; lines of any length", "anchors": ["src/sims_pars/simulation/simugroup.py:24-60", "src/sims_pars/simulation/parcore.py:227-234", "src/sims_pars/simulation/simucore.py:42-51", "src/sims_pars/simulation/simugroup.py:103-109", "src/sims_pars/fn.py:8-25"]}
{"id": "C225", "title": "The law of breeding in a hierarchy", "statement": "Breeding from any core of a hierarchy adds a child with given values of its fixed variables with the product of their probabilities under their definitions, read on the values themselves and on what the child takes from its ancestors; the rest of the hierarchy stays", "quantifier": "all hierarchies, all cores in them, all groups in an order that respects parents, all ideal distributions, all values", "why_tests_cant": "a test sees single runs of single hierarchies", "anchors": ["src/sims_pars/simulation/parcore.py:22-37", "src/sims_pars/simulation/simugroup.py:103-109", "src/sims_pars/simulation/simugroup.py:24-60"]}
{"id": "C226", "title": "The law of an impulse on a hierarchy", "statement": "An impulse on any core of a hierarchy leaves given values in the core and its descendants with the product of the probabilities of the values drawn anew, each under its definition read on the new values of its core and ancestors; the rest of the hierarchy stays", "quantifier": "all hierarchies of every depth, all impulses that name known variables, all ideal distributions, all values", "why_tests_cant": "the joint law over all descendants cannot be seen in single runs", "anchors": ["src/sims_pars/simulation/parcore.py:154-202", "src/sims_pars/simulation/simugroup.py:84-101"]}
{"id": "C227", "title": "The law of histories of a hierarchy", "statement": "Programs of operations on a hierarchy leave given hierarchies, step by step, with the product of the probabilities of the steps: the randomness of a step reaches the next only through the values it leaves", "quantifier": "all programs of breeding, removals, impulses and requests of actors and samplers, of every length, all hierarchies, all ideal generators", "why_tests_cant": "independence between steps cannot be seen in single runs", "anchors": ["src/sims_pars/simulation/parcore.py:154-202", "src/sims_pars/simulation/simugroup.py:84-101", "src/sims_pars/simulation/parcore.py:22-37", "src/sims_pars/simulation/simugroup.py:103-109", "src/sims_pars/simulation/simugroup.py:24-60"]}
{"id": "C228", "title": "The law of an impulse on a chromosome", "statement": "An impulse on a chromosome leaves given values with the product of the probabilities of the random variables that are drawn again, each under its definition read on the new values; values neither given nor shocked stay", "quantifier": "all networks built from scripts, all chromosomes, all impulses that name a variable of the chromosome, all ideal distributions, all values", "why_tests_cant": "a joint law cannot be seen in single runs", "anchors": ["src/sims_pars/bayesnet/chromosome.py:35-60", "src/sims_pars/fn.py:8-25"]}
{"id": "C229", "title": "Interventions follow the truncated factorisation", "statement": "A sample from a network, followed by an impulse, has the truncated factorisation as its law: the product of the probabilities of all random variables but those that the impulse sets, at the new values. The same law comes from sampling the network with the new values given", "quantifier": "all networks, all conditions, all impulses, all ideal distributions, all values", "why_tests_cant": "a joint law cannot be seen in single runs; interventions and conditions go through different code", "anchors": ["src/sims_pars/bayesnet/chromosome.py:35-60", "src/sims_pars/fn.py:8-25"]}
{"id": "C230", "title": "The laws of converted uniform numbers", "statement": "A uniform number that is converted follows the law its domain stands for: uniform between finite ends, exponential with the scale of the domain away from a single finite end, Laplace with location and scale without ends", "quantifier": "all domains with ordered ends, finite location and positive scale; all measurable sets", "why_tests_cant": "laws cannot be seen in single values; tests check that converters undo each other", "anchors": ["src/sims_pars/fit/converter.py:17-46", "src/sims_pars/fit/converter.py:53-91", "src/sims_pars/fit/converter.py:99-110"]}
{"id": "C231", "title": "The law of the posterior of history matching", "statement": "The particles collected after history matching are independent, and so are the parameters of each; each parameter follows the law of its domain, restricted to the bounds reported for it", "quantifier": "all models whose simulations give values, all domains, all states with proper bounds, all numbers of particles, all ideal generators", "why_tests_cant": "independence and laws cannot be seen in single runs", "anchors": ["src/sims_pars/fit/hme/alg.py:176-201", "src/sims_pars/fit/converter.py:17-46", "src/sims_pars/fit/converter.py:53-91"]}
{"id": "C232", "title": "Simulated particles are spread over the bounds", "statement": "In every wave, every one of the n_sims equal slices of the bounds of every parameter holds the value of exactly one simulated particle", "quantifier": "all waves, all parameters, all slices, all bounds, given what scipy promises of Latin hypercubes", "why_tests_cant": "tests look at few runs and dimensions", "anchors": ["src/sims_pars/fit/hme/alg.py:108-122", "src/sims_pars/fit/converter.py:17-46", "src/sims_pars/fit/converter.py:53-91"]}
{"id": "C233", "title": "The laws of probability tables", "statement": "A table draws a combination with its share of the weight; its marginal draws a combination of the other columns with the weight of all rows that have it, and the table given values of some columns draws the rest with its conditional probability", "quantifier": "all tables of non-negative weights over distinct combinations without colons (for marginals repeated ones too), all columns and values, all fair generators", "why_tests_cant": "laws cannot be seen in single draws", "anchors": ["src/sims_pars/data/static.py:43-79", "src/sims_pars/prob.py:184-214"]}
{"id": "C234", "title": "The law of a probability table over time", "statement": "At any time a category is drawn with its share of the weight in the table of the nearest time", "quantifier": "all series with times in order and non-negative weights, all times, all fair generators", "why_tests_cant": "laws cannot be seen in single draws", "anchors": ["src/sims_pars/data/timeseries.py:45-61", "src/sims_pars/prob.py:184-214"]}
{"id": "C235", "title": "Repeated transitions are a Markov chain", "statement": "Repeated calls of a transition matrix visit given states with the product of the transition probabilities; the state after n calls has the probabilities of the n-th power of the matrix of shares", "quantifier": "all transition matrices of non-negative weights, all paths, all numbers of calls, all fair generators", "why_tests_cant": "joint laws cannot be seen in single runs", "anchors": ["src/sims_pars/data/static.py:10-26", "src/sims_pars/prob.py:184-214"]}
{"id": "C236", "title": "Times of a sample are independent", "statement": "The times of one call of sample are independent, each later than t with the chance exp(-rr H(t)); with an inflation by zeros with (1 - p) exp(-rr H(t))", "quantifier": "all hazards and risk ratios above zero, all sizes above one, all lists of times", "why_tests_cant": "independence cannot be seen in single runs", "anchors": ["src/sims_pars/data/reg/hazard.py:100-105", "src/sims_pars/data/reg/hazard.py:130-138"]}
{"id": "C237", "title": "The law of predicted classes", "statement": "A multinomial regression predicts a label with its expected share; a draw from get_sampler has the same law", "quantifier": "all regressions with as many labels as classes, all cases, all fair generators", "why_tests_cant": "laws cannot be seen in single draws; predict and get_sampler go through different code", "anchors": ["src/sims_pars/data/reg/glm.py:57-80", "src/sims_pars/prob.py:184-214"]}
{"id": "C238", "title": "Categories of one call are independent", "statement": "The categories of one call of sample(n) are independent, each drawn with its share of the weight; sample(1) is the single draw", "quantifier": "all dictionaries of non-negative weights with a positive sum, all sizes, all lists of categories, all fair generators", "why_tests_cant": "independence cannot be seen in single runs", "anchors": ["src/sims_pars/prob.py:184-214"]}
{"id": "C239", "title": "The log density of counts", "statement": "When the weights sum to one, the exponential of logpdf of a dictionary of counts is the chance of drawing any one list with these counts; an unknown category is a KeyError even when counted zero times, and a category of weight zero counted zero times gives NaN", "quantifier": "all dictionaries of weights, all lists of categories, all dictionaries of counts", "why_tests_cant": "the density must agree with the sampler for every list; the edges are not met by chance", "anchors": ["src/sims_pars/prob.py:203-207", "src/sims_pars/prob.py:209-214"]}
{"id": "C240", "title": "The law of an empirical draw between the values", "statement": "For increasing values and weights that are not negative, the weight of a value is spread evenly over the way to it from the value below, and the weight of the lowest value stays on it", "quantifier": "all lists of increasing values and of non-negative weights with a positive sum, all numbers between two neighbours", "why_tests_cant": "the distribution function at all numbers cannot be seen in single draws", "anchors": ["src/sims_pars/prob.py:223-231", "src/sims_pars/prob.py:244-245"]}
{"id": "C241", "title": "Empirical draws of one call are independent", "statement": "The chance that the draws of one call fall into given sets is the product of the chances of the single draws; at the values these are the shares of the weights", "quantifier": "all empirical distributions, all numbers of draws, all families of sets", "why_tests_cant": "independence cannot be seen in single runs", "anchors": ["src/sims_pars/prob.py:244-245"]}
{"id": "C242", "title": "The law of the triangle", "statement": "In whatever order its three numbers are given, unless they are all equal, triangle has the distribution function of the triangle over the smallest and the largest with its peak above the middle one, and their average as mean", "quantifier": "all triples of real numbers", "why_tests_cant": "the parameters range over real numbers, and a distribution function cannot be seen in samples", "anchors": ["src/sims_pars/prob.py:353-362"]}
{"id": "C243", "title": "sample draws with the density that evaluate_nodes evaluates", "statement": "For random variables with densities, continuous or discrete, an assignment drawn by sample has a property, and the generator after it another, with the integral over the variables drawn of the product of the densities that their logpdf report given their parents; without given random variables this product is the exponential of evaluate_nodes, and of the LogProb of the chromosome", "quantifier": "all networks whose variables have densities with respect to some sigma-finite measures, all measurable events, all values given", "why_tests_cant": "a density cannot be seen in samples, and the event ranges over all measurable sets", "anchors": ["src/sims_pars/fn.py:8-25", "src/sims_pars/fn.py:62-82"]}
{"id": "C244", "title": "The law of the posterior of a data model with continuous parameters", "statement": "On a data model whose parameters have densities, the particles that rejection ABC collects are independent, and each has its parameters in an event with the integral over it of exp(LogProb) times the chance that the simulation is within the tolerance, divided by the whole integral; the first particles of ABC-SMC have the same law with the chance of a finite distance", "quantifier": "all networks with densities, all simulations and tolerances, all measurable events, all numbers of particles", "why_tests_cant": "the posterior is an integral over all parameters, and a test sees single particles", "anchors": ["src/sims_pars/fit/base.py:101-131", "src/sims_pars/fn.py:8-25", "src/sims_pars/fn.py:62-82", "src/sims_pars/fit/abcom/alg.py:28-36", "src/sims_pars/fit/abc_smc/alg.py:24-34"]}
{"id": "C245", "title": "The posterior of the example BetaBin", "statement": "For the example BetaBin with observed counts, the particles that rejection ABC collects at a tolerance are independent, and the parameters p1 and p2 of each have the mixture, with equal weights, of the products of beta distributions Beta(k1 + 1, 11 - k1) and Beta(k2 + 1, 21 - k2) over the pairs of counts whose distance from the data is within the tolerance; when no other counts are within it, this is the exact posterior of Bayesian statistics", "quantifier": "all observed counts that are not 0, all tolerances, all measurable sets of parameters, all numbers of particles", "why_tests_cant": "the law of the parameters is continuous, and a test sees single particles", "anchors": ["src/sims_pars/fit/toys.py:11-42", "src/sims_pars/fn.py:8-25", "src/sims_pars/fn.py:62-82", "src/sims_pars/fit/base.py:101-131", "src/sims_pars/fit/abcom/alg.py:28-36"]}
{"id": "C246", "title": "The law of the whole script of rejection ABC on the example BetaBin", "statement": "For the example BetaBin, rejection ABC run as its script runs it - n_test test runs, the p_test quantile of their distances as the tolerance, then the particles collected with it, in parallel - ends with probability one; the test runs draw n_test pairs of counts independently and uniformly from the 231 possible ones, and given these the particles are independent and each has the mixture of beta distributions that belongs to the tolerance", "quantifier": "all observed counts that are not 0, all positive numbers of test runs, all quantiles in [0, 1], all measurable sets of parameters, all positive numbers of particles", "why_tests_cant": "the tolerance is itself random, and the law of the particles given it is continuous", "anchors": ["src/sims_pars/fit/toys.py:11-42", "src/sims_pars/fit/abcom/alg.py:17-119", "src/sims_pars/fit/base.py:211-217"]}
{"id": "C247", "title": "Data frames of a parameter set show its particles", "statement": "The data frame of a parameter set has one row for each particle, in order, and one column, never two, for each parameter of any of them; a cell shows what the particle has there and is missing when it has nothing; when no particle has parameters that the first lacks, the columns are in the order of the first. The data frame of predictions shows the outputs noted on the particles in the same way, and raises KeyError when they are not noted on one", "quantifier": "all lists of particles, with chromosomes or dictionaries as parameters, all outputs", "why_tests_cant": "particles need not have the same parameters nor the same order of them", "anchors": ["src/sims_pars/fit/results.py:25-26", "src/sims_pars/fit/results.py:36-37"]}
{"id": "C248", "title": "The mean of chromosomes", "statement": "The mean of chromosomes has an entry for exactly the variables that any of them has; the entry is the mean over those that have a number there, lies between bounds that hold for all of them, does not depend on the order of the chromosomes, and for copies of one chromosome is the chromosome itself", "quantifier": "all lists of chromosomes with numeric variables, missing and NaN values included", "why_tests_cant": "chromosomes may lack variables or have NaN in them", "anchors": ["src/sims_pars/bayesnet/chromosome.py:108-111"]}
{"id": "C249", "title": "Summaries of chromosomes", "statement": "The summary of chromosomes gives, for each variable with numbers, their count, mean, least and greatest value and quartiles, which are in order between them; the standard deviation is that of a sample, and NaN for a single number; it raises ValueError exactly when no chromosome has a variable", "quantifier": "all lists of chromosomes with numeric variables", "why_tests_cant": "order of interpolated quantiles for any number of values, with repetitions", "anchors": ["src/sims_pars/bayesnet/chromosome.py:103-106"]}
{"id": "C250", "title": "The data frame of chromosomes shows them", "statement": "The data frame of chromosomes has one row for each of them, showing its variables, and a column LogProb with the log probability of those that have been evaluated, present exactly when one has", "quantifier": "all lists of chromosomes", "why_tests_cant": "chromosomes with different variables, or a variable named like the column", "anchors": ["src/sims_pars/bayesnet/chromosome.py:93-97", "src/sims_pars/bayesnet/chromosome.py:113-115"]}
{"id": "C251", "title": "The posterior of the example EpiSIR", "statement": "For the example EpiSIR made with given rates, the particles that rejection ABC collects at a tolerance are independent, and the rates (gamma, beta) of each are uniform on the part of [0.1, 1] x [1, 20] where 78.4 times the sum of the squared differences from the eighteen observed values, each divided by the observed value, is at most the tolerance; the particles that ABC-SMC begins with are independent and uniform on the whole rectangle", "quantifier": "all integrations that keep the population at 1000, all rates for which no observed value is 0, all tolerances, all measurable sets of rates, all numbers of particles", "why_tests_cant": "the law of the rates is continuous, and a test sees single particles", "anchors": ["src/sims_pars/fit/toys.py:75-119", "src/sims_pars/fit/base.py:101-131", "src/sims_pars/fit/abcom/alg.py:28-36"]}
{"id": "C252", "title": "The posterior of the example Normal2", "statement": "For the example Normal2 with n numbers in each sample, the particles that rejection ABC collects at a tolerance are independent, and each triple (std, mu1, mu2) has the density gamma(0.1, 0.1) of std times the normal densities of mu1 and mu2 given std times the chance that the means of two samples of n normal numbers are within the tolerance of the observed means, divided by the integral of this product; the particles that ABC-SMC begins with are independent and have the density of the prior", "quantifier": "all observed samples with means other than 0, all sample sizes above 0, all tolerances, all measurable sets of triples, all numbers of particles", "why_tests_cant": "the law of the triple is continuous and hierarchical, and a test sees single particles", "anchors": ["src/sims_pars/fit/toys.py:45-72", "src/sims_pars/fit/base.py:101-131", "src/sims_pars/fit/abcom/alg.py:28-36"]}
{"id": "C253", "title": "Every node has exactly one kind", "statement": "A name is in the network exactly when it was defined or mentioned as a parent; every question about another name raises KeyError; a name in the network is exactly one of: to be calculated (last definition a distribution or a function), exogenous (never defined, or defined without a rule), a value", "quantifier": "all sequences of accepted definitions, with redefinitions, all names", "why_tests_cant": "the kind depends on the history of definitions, and names that were only mentioned have one too", "anchors": ["src/sims_pars/bayesnet/bn.py:66-90", "src/sims_pars/bayesnet/bn.py:175-193", "src/sims_pars/bayesnet/bn.py:210-214"]}
{"id": "C254", "title": "User-defined functions", "statement": "A user-defined function is added unless its name is taken, is kept by definitions and copies and collected by merges, and can be called in definitions afterwards", "quantifier": "all networks, names and semantics of expressions", "why_tests_cant": "copies and merges of arbitrary networks", "anchors": ["src/sims_pars/bayesnet/bn.py:109-111", "src/sims_pars/bayesnet/bn.py:234-249", "src/sims_pars/bayesnet/bn.py:266-281"]}
{"id": "C255", "title": "Samples from a data set", "statement": "Asked for one value, sample returns the value of one call; asked for another number it returns a list with as many values (none for a negative number) from calls one after the other, and raises what the first failing call raises; combinations sampled from a probability table are independent, each drawn with its share of the weight", "quantifier": "all data sets that inherit sample, all numbers, states and generators; for the law all tables of non-negative weights over distinct combinations without colons and all fair generators", "why_tests_cant": "laws and independence cannot be seen in single draws", "anchors": ["src/sims_pars/data/frame.py:15-19", "src/sims_pars/data/static.py:43-62"]}
