{"id": "C01", "title": "Consideration sets partition the graph's nodes", "statement": "For an acyclic graph, Scheduler(graph).consideration_queue lists every node of the graph (keys and nodes that only appear as senders) in exactly one consideration set, contains no other node, and contains no empty set.", "quantifier": "every dependency dict with finitely many nodes, every iteration order of its dict and sets", "why_tests_cant": "The unit tests fix a handful of graphs; the claim ranges over all graphs of all sizes.", "anchors": ["src/graph_scheduler/scheduler.py:_build_consideration_queue", "src/graph_scheduler/scheduler.py:Scheduler.consideration_queue", "src/graph_scheduler/scheduler.py:Scheduler.__init__"]}
{"id": "C02", "title": "Senders are considered strictly before receivers", "statement": "If the graph has an edge sender -> receiver between different nodes, the consideration set containing the sender comes strictly before the one containing the receiver; in particular no two nodes of the same consideration set are joined by an edge.", "quantifier": "every acyclic graph and every edge of it", "why_tests_cant": "Needs all graphs and all edges, not chosen examples.", "anchors": ["src/graph_scheduler/scheduler.py:_build_consideration_queue", "src/graph_scheduler/scheduler.py:_generate_consideration_queue_indices", "src/graph_scheduler/scheduler.py:Scheduler.consideration_queue_indices"]}
{"id": "C03", "title": "Each node is placed at the earliest possible position", "statement": "The position of a node in consideration_queue is exactly the length of the longest chain of senders leading to it: a node without senders (other than itself) is at position 0, and every node at position k+1 has a sender at position k.", "quantifier": "every acyclic graph and every node", "why_tests_cant": "A test checks a few expected queues; minimality must hold in every graph.", "anchors": ["src/graph_scheduler/scheduler.py:_build_consideration_queue", "src/graph_scheduler/scheduler.py:Scheduler.consideration_queue"]}
{"id": "C04", "title": "Cyclic graphs are rejected exactly when they are cyclic", "statement": "Iterating run() raises SchedulerError before yielding anything if and only if the current graph contains a cycle through at least two nodes; edges from a node to itself are not counted as cycles. Constructing the Scheduler does not raise.", "quantifier": "every graph, cyclic or not", "why_tests_cant": "Absence of false positives and false negatives over all graphs cannot be sampled.", "anchors": ["src/graph_scheduler/scheduler.py:Scheduler._validate_run_state", "src/graph_scheduler/scheduler.py:Scheduler._push_graph"]}
{"id": "C05", "title": "The consideration queue depends only on the graph, not on how it is written", "statement": "Two dependency dicts with the same nodes and edges give the same consideration_queue (the same sets in the same order), whatever the insertion order of the dict and iteration order of the sets.", "quantifier": "every pair of presentations of the same acyclic graph", "why_tests_cant": "Set iteration order changes between interpreter runs, so tests see one order at a time.", "anchors": ["src/graph_scheduler/scheduler.py:_build_consideration_queue"]}
{"id": "C06", "title": "Every yielded set comes from one consideration set, in queue order", "statement": "Within one PASS of run(), the yielded sets are subsets of pairwise different consideration sets, in the order of consideration_queue, without duplicates; hence a node and one of its senders are never yielded in the same set, and in any PASS a sender that executes is yielded before its receivers.", "quantifier": "every graph, every assignment of conditions and termination conditions, every history of previous runs, every point of the run", "why_tests_cant": "Quantifies over all conditions (including user-defined ones) and all histories.", "anchors": ["src/graph_scheduler/scheduler.py:Scheduler.run"]}
{"id": "C07", "title": "A node executes only when its condition is satisfied", "statement": "Whenever run() yields a set containing a node, that node's condition evaluated to True at the moment the node was added, i.e. in the state resulting from all earlier executions and from the nodes added to the same set before it.", "quantifier": "every graph, conditions, history, yielded set and node in it", "why_tests_cant": "Must hold at every step of every schedule.", "anchors": ["src/graph_scheduler/scheduler.py:Scheduler.run", "src/graph_scheduler/condition.py:Condition.is_satisfied"]}
{"id": "C08", "title": "No node whose condition is satisfied is left out", "statement": "When run() finishes choosing an execution set, every node of the consideration set that is not in it has an unsatisfied condition in the final state, i.e. cascading additions inside one consideration set are followed to the end and the loop always ends.", "quantifier": "every graph, conditions, history and consideration set", "why_tests_cant": "The cascade can be arbitrarily long; tests exercise length one or two.", "anchors": ["src/graph_scheduler/scheduler.py:Scheduler.run"]}
{"id": "C09", "title": "Default scheduling runs the consideration queue once", "statement": "If no basic conditions and no termination conditions are given, list(run()) equals consideration_queue, for every acyclic graph without self-edges, and this is so for every call of run(), whatever runs preceded it.", "quantifier": "every such graph, every number of earlier completed runs, every iteration order", "why_tests_cant": "Tests compare a few graphs; needs induction over layers.", "anchors": ["src/graph_scheduler/scheduler.py:Scheduler.run", "src/graph_scheduler/scheduler.py:Scheduler._validate_conditions"]}
{"id": "C10", "title": "A node without a condition waits for all its structural parents", "statement": "A node with no explicit condition is executed when considered if and only if each of its senders in the current graph has executed at least once, in this run, since the node's own last execution.", "quantifier": "every graph, every mix of explicit conditions on other nodes, every point of a run", "why_tests_cant": "The claim is about every reachable state of every schedule.", "anchors": ["src/graph_scheduler/scheduler.py:Scheduler._validate_conditions", "src/graph_scheduler/condition.py:EveryNCalls"]}
{"id": "C11", "title": "Call counters equal the number of executions in the current unit of time", "statement": "At every evaluation during run(), scheduler.counts_total[id][ENVIRONMENT_STATE_UPDATE][n] is the number of sets containing n selected so far in this run, counts_total[id][PASS][n] is 1 or 0 according to whether n was selected in the current PASS, and counts_total[id][LIFE][n] is the number of all selections of n under this execution id.", "quantifier": "every schedule, node, time scale and point of the run, over any number of runs", "why_tests_cant": "Bookkeeping over unboundedly many steps and runs.", "anchors": ["src/graph_scheduler/scheduler.py:Scheduler.run", "src/graph_scheduler/scheduler.py:Scheduler._reset_counts_total", "src/graph_scheduler/scheduler.py:Scheduler._init_counts"]}
{"id": "C12", "title": "Useable counts equal executions since the owner last executed", "statement": "EveryNCalls(dependency, n) owned by a different node is satisfied exactly when dependency has been selected at least n times since the later of the owner's last selection and the start of the current run. Owned by the dependency itself it is satisfied exactly when n <= 0, or n = 1 and the node was selected before in this run.", "quantifier": "every schedule, every pair of nodes, every n and every point of the run", "why_tests_cant": "Bookkeeping over unboundedly many steps; depends on the interleaving of two nodes' executions.", "anchors": ["src/graph_scheduler/condition.py:EveryNCalls", "src/graph_scheduler/scheduler.py:Scheduler.run", "src/graph_scheduler/scheduler.py:Scheduler._reset_counts_useable"]}
{"id": "C13", "title": "EveryNCalls bounds the relative execution rate", "statement": "If the condition of B is EveryNCalls(A, n) with A different from B, then in the sets yielded by one run A appears at least n times as often as B, at every prefix of the run, and between two consecutive selections of B (and before the first) A is selected at least n times; when A is not in the set of the first of them, at least n sets containing A lie between the two sets (counting the second).", "quantifier": "every graph, conditions of other nodes, n, and prefix of a run", "why_tests_cant": "An inequality about every prefix of every schedule.", "anchors": ["src/graph_scheduler/condition.py:EveryNCalls", "src/graph_scheduler/scheduler.py:Scheduler.run"]}
{"id": "C14", "title": "Termination conditions are honoured at every step", "statement": "run() never starts choosing an execution set while an ENVIRONMENT_STATE_UPDATE or ENVIRONMENT_SEQUENCE termination condition is satisfied, and it returns only when one of them is satisfied.", "quantifier": "every graph, conditions, termination conditions and history", "why_tests_cant": "Must hold for every step of every schedule and for user-defined termination conditions.", "anchors": ["src/graph_scheduler/scheduler.py:Scheduler.run"]}
{"id": "C15", "title": "With the default termination condition every node has executed when run() returns", "statement": "If run() with the default termination conditions returns, then every node of the scheduler occurs in at least one of the sets yielded by that run, and no proper prefix of the yielded sets ending at a completed set covered all nodes.", "quantifier": "every graph, conditions and history for which the run returns", "why_tests_cant": "Ranges over all schedules.", "anchors": ["src/graph_scheduler/scheduler.py:default_termination_conds", "src/graph_scheduler/condition.py:AllHaveRun", "src/graph_scheduler/scheduler.py:Scheduler.run"]}
{"id": "C16", "title": "Empty sets are yielded only for passes in which nothing executes", "statement": "Outside absolute-time mode, run() yields an empty set exactly once for each PASS in which no node executed and never otherwise; all other yielded sets are non-empty.", "quantifier": "every graph, conditions and history", "why_tests_cant": "Ranges over all schedules.", "anchors": ["src/graph_scheduler/scheduler.py:Scheduler.run"]}
{"id": "C17", "title": "execution_list is the history of yielded sets", "statement": "After any sequence of runs, complete or abandoned, execution_list[id] is what it was when the id was first used followed by every set yielded under that id, in order; run() returns this list. (An id that was first used by run() has no list of time stamps, so a run under it in absolute-time mode is an exception: it raises.)", "quantifier": "every history of runs over any execution ids", "why_tests_cant": "Ranges over all histories.", "anchors": ["src/graph_scheduler/scheduler.py:Scheduler.run", "src/graph_scheduler/scheduler.py:Scheduler.execution_list"]}
{"id": "C18", "title": "next() on a run always comes back", "statement": "Outside absolute-time mode, and in absolute-time mode on a non-empty graph, each request for the next set terminates (yields, returns or raises) after evaluating at most two passes' worth of consideration sets, whatever the conditions are.", "quantifier": "every graph, conditions and state", "why_tests_cant": "Termination for all inputs is not testable.", "anchors": ["src/graph_scheduler/scheduler.py:Scheduler.run"]}
{"id": "C19", "title": "A completed run advances the clock by one ENVIRONMENT_STATE_UPDATE", "statement": "A run iterated to the end increments the clock of its execution id by CONSIDERATION_SET_EXECUTION once per yielded set, PASS once per pass, and ENVIRONMENT_STATE_UPDATE exactly once at the end (not at all with skip_environment_state_update_time_increment); it never touches ENVIRONMENT_SEQUENCE.", "quantifier": "every run and history", "why_tests_cant": "Ranges over all schedules and histories.", "anchors": ["src/graph_scheduler/scheduler.py:Scheduler.run", "src/graph_scheduler/time.py:Clock._increment_time"]}
{"id": "C20", "title": "Time is strictly increasing and consistently nested", "statement": "Every increment of a clock makes its time strictly larger in the order (sequence, state update, pass, set execution), sets all finer units to zero and leaves coarser ones unchanged; a field of the current time is the number of increments of that unit since the last increment of a coarser unit.", "quantifier": "every sequence of increments", "why_tests_cant": "Unbounded sequences.", "anchors": ["src/graph_scheduler/time.py:Time._increment_by_time_scale", "src/graph_scheduler/time.py:Time._reset_by_time_scale", "src/graph_scheduler/time.py:TimeHistoryTree.increment_time"]}
{"id": "C21", "title": "History queries count what happened", "statement": "Clock.get_total_times_relative(query, base, index) returns the number of query-increments that occurred during the index-th base unit (of the current enclosing units), for every recorded base unit coarser than the query, and raises TimeScaleError for units that have not occurred or are not recorded.", "quantifier": "every sequence of increments, every query/base scale and index", "why_tests_cant": "Unbounded histories and a nested data structure.", "anchors": ["src/graph_scheduler/time.py:TimeHistoryTree.get_total_times_relative", "src/graph_scheduler/time.py:TimeHistoryTree.increment_time", "src/graph_scheduler/time.py:Clock.get_total_times_relative"]}
{"id": "C22", "title": "Time-based conditions select exactly the documented instants", "statement": "During any run, AtPass(n)/BeforePass(n)/AfterPass(n)/AfterNPasses(n)/EveryNPasses(n) with time_scale t are satisfied exactly when the number of completed passes in the current unit t is =n / <n / >n / >=n / a multiple of n; the same for the ConsiderationSetExecution and EnvironmentStateUpdate families and for EnvironmentSequence.", "quantifier": "every history, every n, every time scale coarser than the counted one", "why_tests_cant": "Tests use small n and a single scale at a time.", "anchors": ["src/graph_scheduler/condition.py:AtPass", "src/graph_scheduler/condition.py:BeforePass", "src/graph_scheduler/condition.py:AfterPass", "src/graph_scheduler/condition.py:AfterNPasses", "src/graph_scheduler/condition.py:EveryNPasses", "src/graph_scheduler/condition.py:AtConsiderationSetExecution", "src/graph_scheduler/condition.py:AtEnvironmentStateUpdate", "src/graph_scheduler/condition.py:AtEnvironmentSequence"]}
{"id": "C23", "title": "Composite conditions are the logical connectives", "statement": "All is satisfied iff every component is, Any iff some component is, Not iff its component is not, in any nesting; evaluation is left to right and stops at the first deciding component, so a component that raises only matters if it is reached.", "quantifier": "every condition tree over arbitrary component conditions and states", "why_tests_cant": "Trees of any depth and width.", "anchors": ["src/graph_scheduler/condition.py:All", "src/graph_scheduler/condition.py:Any", "src/graph_scheduler/condition.py:Not"]}
{"id": "C24", "title": "NWhen is satisfied at most n times per execution id", "statement": "For each execution id, over the whole life of the condition, NWhen(c, n) is satisfied exactly the first n times that c is satisfied upon evaluation and never after that; evaluations under other execution ids do not consume its quota.", "quantifier": "every n, every sequence of evaluations under any execution ids", "why_tests_cant": "Unbounded sequences of evaluations.", "anchors": ["src/graph_scheduler/condition.py:NWhen"]}
{"id": "C25", "title": "JustRan looks at the previous set", "statement": "JustRan(d) is satisfied exactly when d is in the last set yielded before under this execution id (across run and time-scale boundaries); it is never satisfied when nothing has been yielded yet.", "quantifier": "every history and node", "why_tests_cant": "Includes the empty history and run boundaries.", "anchors": ["src/graph_scheduler/condition.py:JustRan"]}
{"id": "C26", "title": "Call-count conditions are mutually consistent", "statement": "For all nodes, n and time scales, at every point: BeforeNCalls(d,n) holds iff AfterNCalls(d,n) does not; AfterCall(d,n) iff AfterNCalls(d,n+1); AtNCalls(d,n) iff AfterNCalls(d,n) and BeforeNCalls(d,n+1); AfterNCallsCombined(d..., n) iff the sum of calls is at least n; AllHaveRun(d...) iff AfterNCalls(d,1) for each d. Within a run a satisfied AfterNCalls/AfterCall/AllHaveRun over ENVIRONMENT_STATE_UPDATE stays satisfied until the run ends.", "quantifier": "every n (also zero and negative), scale, node and reachable state", "why_tests_cant": "Relations between conditions over all states.", "anchors": ["src/graph_scheduler/condition.py:BeforeNCalls", "src/graph_scheduler/condition.py:AtNCalls", "src/graph_scheduler/condition.py:AfterCall", "src/graph_scheduler/condition.py:AfterNCalls", "src/graph_scheduler/condition.py:AfterNCallsCombined", "src/graph_scheduler/condition.py:AllHaveRun"]}
{"id": "C27", "title": "Execution contexts do not disturb each other", "statement": "Interleaving the iteration of a run under one execution id with any operations on runs and clocks under other execution ids does not change what the first run yields nor any count, clock or history stored under its id.", "quantifier": "every pair of runs under different ids, every interleaving of their steps", "why_tests_cant": "All interleavings of unboundedly long runs.", "anchors": ["src/graph_scheduler/scheduler.py:Scheduler.run", "src/graph_scheduler/scheduler.py:Scheduler._init_counts", "src/graph_scheduler/scheduler.py:Scheduler.get_clock"]}
{"id": "C28", "title": "A new execution context starts empty", "statement": "The first run under an execution id that was never used yields the same sets as on a newly built scheduler, with an empty execution history of its own.", "quantifier": "every history of the scheduler under other ids", "why_tests_cant": "Depends on arbitrary history under other ids.", "anchors": ["src/graph_scheduler/scheduler.py:Scheduler.run", "src/graph_scheduler/scheduler.py:Scheduler._init_counts"]}
{"id": "C29", "title": "base_execution_id forks an execution context", "statement": "run(execution_id=new, base_execution_id=b) for a never-used id gives it copies of b's total counts and execution history; later activity under either id does not affect the other; for an id already in use base_execution_id is ignored; an unknown b raises SchedulerError and changes no counts.", "quantifier": "every history, every pair of ids", "why_tests_cant": "Independence after the fork ranges over all continuations.", "anchors": ["src/graph_scheduler/scheduler.py:Scheduler._init_counts", "src/graph_scheduler/scheduler.py:Scheduler._init_clock"]}
{"id": "C30", "title": "An abandoned run does not corrupt later runs", "statement": "If iteration of run() is abandoned after any number of sets, the next run under the same id starts with zeroed run-level and pass-level counts and useable counts, and its schedule depends only on the clock, life-time counts and execution history.", "quantifier": "every schedule, every abandonment point", "why_tests_cant": "The abandonment (crash) point is arbitrary.", "anchors": ["src/graph_scheduler/scheduler.py:Scheduler.run"]}
{"id": "C31", "title": "The schedule does not depend on iteration order inside a consideration set", "statement": "The sets yielded by run() are the same for every iteration order of the nodes within each consideration set (the documentation calls the order irrelevant).", "quantifier": "every graph, conditions, and pair of iteration orders", "why_tests_cant": "Each interpreter run shows one order only.", "anchors": ["src/graph_scheduler/scheduler.py:Scheduler.run"]}
{"id": "C32", "title": "Structural conditions act as an ordered composition on the base graph", "statement": "After any sequence of adding and removing structural conditions in which no operation raised, Scheduler.graph is the base graph transformed by the remaining structural conditions in the order they were added, and consideration_queue is the topological layering of that graph.", "quantifier": "every base graph, every sequence of additions and removals, every structural condition (custom ones included)", "why_tests_cant": "Incremental stack maintenance over unbounded edit sequences.", "anchors": ["src/graph_scheduler/scheduler.py:Scheduler._handle_modified_structural_conditions", "src/graph_scheduler/scheduler.py:Scheduler.graph", "src/graph_scheduler/scheduler.py:Scheduler._push_graph", "src/graph_scheduler/scheduler.py:Scheduler._pop_graph"]}
{"id": "C33", "title": "Removing a structural condition undoes it", "statement": "Adding a structural condition that is not already present and then removing it (with remove_condition(condition)) restores graph and consideration_queue to what they were, whatever conditions were there before, and reading these properties never changes them.", "quantifier": "every scheduler state reachable without exceptions, every structural condition", "why_tests_cant": "Ranges over all states.", "anchors": ["src/graph_scheduler/scheduler.py:Scheduler.remove_condition", "src/graph_scheduler/scheduler.py:Scheduler._handle_modified_structural_conditions"]}
{"id": "C34", "title": "A rejected structural condition leaves the scheduler usable", "statement": "If adding a structural condition raises (for instance because it names a node that is not in the graph), then after removing that condition the scheduler's graph is the one before the attempt.", "quantifier": "every scheduler state and every failing condition, at every position in the sequence", "why_tests_cant": "Error paths at every point of every history.", "anchors": ["src/graph_scheduler/scheduler.py:Scheduler._handle_modified_structural_conditions", "src/graph_scheduler/condition.py:_GSCUsingNodes._validate_graph"]}
{"id": "C35", "title": "AddEdgeTo and RemoveEdgeFrom change exactly one edge", "statement": "add_graph_edge(s, r) gives a graph whose edges are the old ones plus s -> r and nothing else; remove_graph_edge(s, r) the old ones minus s -> r; both keep the node set; they undo each other when the edge was absent (present).", "quantifier": "every graph and every pair of different nodes", "why_tests_cant": "All graphs.", "anchors": ["src/graph_scheduler/scheduler.py:Scheduler.add_graph_edge", "src/graph_scheduler/scheduler.py:Scheduler.remove_graph_edge", "src/graph_scheduler/condition.py:AddEdgeTo", "src/graph_scheduler/condition.py:RemoveEdgeFrom"]}
{"id": "C36", "title": "BeforeNodes puts its owner before every subject", "statement": "After BeforeNodes(subjects) is applied for an owner, the resulting graph has an edge owner -> s for every subject s, so whenever the result is acyclic the owner is in a strictly earlier consideration set than each subject; if that was already so for all subjects, the graph is unchanged.", "quantifier": "every graph, owner, non-empty tuple of subjects, and every combination of options", "why_tests_cant": "All graphs and all option combinations (9^2 operations and more with per-subject operations).", "anchors": ["src/graph_scheduler/condition.py:BeforeNodes", "src/graph_scheduler/condition.py:_GSCReposition", "src/graph_scheduler/condition.py:_GSCWithOperations"]}
{"id": "C37", "title": "AfterNodes puts its owner after every subject", "statement": "After AfterNodes(subjects) is applied, the resulting graph has an edge s -> owner for every subject s, so whenever the result is acyclic the owner is in a strictly later consideration set than each subject; if that was already so for all subjects the graph is unchanged.", "quantifier": "every graph, owner, subjects and options", "why_tests_cant": "All graphs and option combinations.", "anchors": ["src/graph_scheduler/condition.py:AfterNodes", "src/graph_scheduler/condition.py:_GSCReposition"]}
{"id": "C38", "title": "WithNode puts its owner together with its subject", "statement": "After WithNode(s) is applied to a graph without self-edges, owner and s have the same senders, so whenever the result is acyclic they are in the same consideration set.", "quantifier": "every graph, owner, subject and options", "why_tests_cant": "All graphs and option combinations.", "anchors": ["src/graph_scheduler/condition.py:WithNode", "src/graph_scheduler/condition.py:_GSCReposition"]}
{"id": "C39", "title": "Applying a structural condition neither loses nodes nor modifies its argument", "statement": "modify_graph of every built-in structural condition returns a graph with the same nodes as its argument and leaves the argument's sets unchanged; nodes and edges not adjacent to the owner or a subject are changed only by cycle pruning and reconnection.", "quantifier": "every graph, condition and options", "why_tests_cant": "All graphs; aliasing of mutable sets.", "anchors": ["src/graph_scheduler/condition.py:GraphStructureCondition.modify_graph", "src/graph_scheduler/condition.py:_GSCWithOperations._process", "src/graph_scheduler/utilities.py:clone_graph"]}
{"id": "C40", "title": "Operations produce the documented neighbours or a conflict error", "statement": "With post-processing switched off, applying operations either raises ConditionError because two operations disagree about an edge, or gives a graph in which the senders and receivers of the owner and of each subject are exactly the results of the respective operations on the old neighbour sets.", "quantifier": "every graph, owner, subjects, and every assignment of the nine operations to the four roles (also per subject)", "why_tests_cant": "9^4 combinations per graph, all graphs.", "anchors": ["src/graph_scheduler/condition.py:Operation", "src/graph_scheduler/condition.py:_GSCWithOperations._process", "src/graph_scheduler/condition.py:_GSCWithOperations._get_edge_conflicts"]}
{"id": "C41", "title": "Reconnection preserves paths and never creates a cycle", "statement": "With reconnect_non_subject_receivers, every former sender of the owner still has a path to every former non-subject receiver of the owner unless the receiver now precedes that sender; reconnection only adds edges, and does not make an acyclic result cyclic.", "quantifier": "every acyclic base graph and condition", "why_tests_cant": "All graphs.", "anchors": ["src/graph_scheduler/condition.py:_GSCWithOperations._handle_reconnect_non_subject_receivers"]}
{"id": "C42", "title": "Cycle pruning terminates and only removes permissible edges", "statement": "Cycle pruning ends for every graph, only ever removes edges, never removes an edge required by the condition, and does nothing when the graph has no cycle.", "quantifier": "every graph and condition, every enumeration order of simple cycles", "why_tests_cant": "Termination of a data-dependent loop for all graphs.", "anchors": ["src/graph_scheduler/condition.py:_GSCWithOperations._handle_prune_cycles", "src/graph_scheduler/condition.py:_GSCWithOperations._prune_owner_edge"]}
{"id": "C43", "title": "ConditionSet keeps one basic condition per node and all structural ones in order", "statement": "After any sequence of additions, each node's basic condition is the last basic one added for it, its structural conditions are all those added for it in order, the global structural order is the order of addition, and the combined view (conditions, __getitem__, in) lists the basic one first, then the structural ones.", "quantifier": "every sequence of additions, single or in bulk", "why_tests_cant": "Unbounded sequences.", "anchors": ["src/graph_scheduler/condition.py:ConditionSet.add_condition", "src/graph_scheduler/condition.py:ConditionSet.add_condition_set", "src/graph_scheduler/condition.py:ConditionSet.conditions"]}
{"id": "C44", "title": "remove_condition removes exactly the named condition and returns it", "statement": "remove_condition(x) removes the condition x, or the only condition owned by x, from the set, leaves all others in place and in order, and returns the removed condition, or None when nothing was removed; ambiguous owners and ownerless conditions raise ConditionError and change nothing.", "quantifier": "every set of conditions and every argument", "why_tests_cant": "Unbounded sets and all argument kinds.", "anchors": ["src/graph_scheduler/condition.py:ConditionSet.remove_condition", "src/graph_scheduler/scheduler.py:Scheduler.remove_condition"]}
{"id": "C45", "title": "Termination conditions are merged over the defaults", "statement": "For each of the two time scales the condition in force during run() is the one passed to run() if given, else the one last assigned to termination_conds, else the one given to the constructor, else the default; assigning None to termination_conds restores the constructor's; passing conditions to one run(), or an assignment that raises, does not affect later runs; a dict with a key that is no time scale or a value that is not a basic condition is rejected.", "quantifier": "every combination of sources and every sequence of assignments", "why_tests_cant": "All combinations and histories.", "anchors": ["src/graph_scheduler/scheduler.py:Scheduler._combine_termination_conditions", "src/graph_scheduler/scheduler.py:Scheduler._parse_termination_conditions", "src/graph_scheduler/scheduler.py:Scheduler.termination_conds"]}
{"id": "C46", "title": "Graph conversions and receiver maps are faithful", "statement": "get_receivers is the exact converse of the dependency relation; converting a dependency dict to a networkx graph and back gives the same nodes and edges; clone_graph gives an equal graph.", "quantifier": "every graph", "why_tests_cant": "All graphs.", "anchors": ["src/graph_scheduler/utilities.py:get_receivers", "src/graph_scheduler/utilities.py:dependency_dict_to_networkx_digraph", "src/graph_scheduler/utilities.py:networkx_digraph_to_dependency_dict", "src/graph_scheduler/utilities.py:clone_graph"]}
{"id": "C47", "title": "Ancestors and descendants are reachability", "statement": "m is in get_ancestors(g)[n] iff m is different from n and there is a path m -> n, and descendants are the converse relation.", "quantifier": "every graph and pair of nodes", "why_tests_cant": "All graphs.", "anchors": ["src/graph_scheduler/utilities.py:get_ancestors", "src/graph_scheduler/utilities.py:get_descendants"]}
{"id": "C48", "title": "TimeInterval(repeat=r) executes its node exactly every r", "statement": "In absolute-time mode, consecutive executions of a node whose condition is TimeInterval(repeat=r) are exactly r apart in absolute time, without drift, for any number of nodes with different intervals, from the first execution to the end of the run.", "quantifier": "every graph, every assignment of integer repeat intervals, every run length", "why_tests_cant": "Unbounded run length; arithmetic over all interval combinations.", "anchors": ["src/graph_scheduler/condition.py:TimeInterval", "src/graph_scheduler/scheduler.py:Scheduler._get_absolute_consideration_set_execution_unit", "src/graph_scheduler/time.py:Time._increment_by_time_scale"]}
{"id": "C49", "title": "Absolute timestamps advance uniformly", "statement": "In absolute-time mode every considered set is yielded with a timestamp, the k-th timestamp of a run is its first one plus k times the interval, one pass takes exactly the greatest common divisor of all repeat intervals in standard mode, and absolute time never decreases over the life of a clock.", "quantifier": "every graph, conditions and run", "why_tests_cant": "Unbounded run length.", "anchors": ["src/graph_scheduler/scheduler.py:Scheduler.run", "src/graph_scheduler/scheduler.py:Scheduler._get_absolute_consideration_set_execution_unit", "src/graph_scheduler/time.py:Time._increment_by_time_scale"]}
{"id": "C50", "title": "Exact-time mode reaches every specified time", "statement": "In EXACT_TIME mode, if the clock starts at a multiple of the interval, every time that is used inclusively as a start, end or termination time by the conditions of the nodes or the run, and every multiple of a repeat interval used by them, if not before the starting time, is the time of some consideration set execution if the run lasts that long.", "quantifier": "every set of absolute conditions and run", "why_tests_cant": "Arithmetic over all combinations.", "anchors": ["src/graph_scheduler/scheduler.py:Scheduler._get_absolute_consideration_set_execution_unit", "src/graph_scheduler/scheduler.py:Scheduler.run"]}
{"id": "C51", "title": "TimeTermination(t) lets the run proceed until time t", "statement": "A run with TimeTermination(t) as its termination condition and the clock before t executes nodes until absolute time t is reached.", "quantifier": "every graph, t, interval and starting time", "why_tests_cant": "All combinations of conditions and times.", "anchors": ["src/graph_scheduler/condition.py:TimeTermination", "src/graph_scheduler/scheduler.py:Scheduler.run"]}
{"id": "C52", "title": "Functions receive only arguments they accept", "statement": "A user function given to a Condition is called only with keyword arguments it names (or all, if it takes **kwargs), and positional arguments are never more than its parameters without defaults (unless it takes *args); keyword values given at evaluation override those given at construction.", "quantifier": "every signature and argument list", "why_tests_cant": "All signatures.", "anchors": ["src/graph_scheduler/utilities.py:prune_unused_args", "src/graph_scheduler/utilities.py:call_with_pruned_args", "src/graph_scheduler/condition.py:Condition.is_satisfied"]}
{"id": "C53", "title": "Caching of graph functions is transparent", "statement": "get_ancestors, get_descendants, get_receivers, get_simple_cycles and the consideration queue return the same as if computed afresh, for every sequence of calls and in-place modifications of graphs, provided different graphs hash differently and callers do not modify returned values.", "quantifier": "every sequence of calls, evictions and graph mutations", "why_tests_cant": "Cache keys share mutable sets with live graphs; all histories matter.", "anchors": ["src/graph_scheduler/utilities.py:cached_graph_function", "src/graph_scheduler/utilities.py:HashableDict"]}
{"id": "C54", "title": "Default conditions follow the current graph", "statement": "The implicit condition of a node without an explicit one refers to its senders in the graph at the time of each run, also when the graph was changed by structural conditions between runs.", "quantifier": "every sequence of runs and structural changes", "why_tests_cant": "All histories.", "anchors": ["src/graph_scheduler/scheduler.py:Scheduler._validate_conditions"]}
{"id": "C55", "title": "A condition governs only the node it was added to", "statement": "Adding a condition object to a node does not change when any other node executes.", "quantifier": "every condition object and every pair of nodes", "why_tests_cant": "Aliasing of condition objects over all histories.", "anchors": ["src/graph_scheduler/condition.py:ConditionSet.add_condition", "src/graph_scheduler/condition.py:ConditionBase.owner", "src/graph_scheduler/condition.py:CompositeCondition.owner"]}
{"id": "C56", "title": "consideration_queue_indices names each node's position", "statement": "On an acyclic graph consideration_queue_indices has exactly the graph's nodes as keys, and maps each to the position of the unique consideration set that contains it in standard mode; in EXACT_TIME mode it still maps each node to its position in the queue of standard mode, so that senders have smaller numbers than their receivers although the consideration queue is a single set. The same holds for the current graph after adding and removing structural conditions.", "quantifier": "every graph, both modes, every sequence of additions, removals and reads that raises nothing", "why_tests_cant": "All graphs.", "anchors": ["src/graph_scheduler/scheduler.py:_generate_consideration_queue_indices", "src/graph_scheduler/scheduler.py:Scheduler.consideration_queue_indices"]}
{"id": "C57", "title": "A pass considers every consideration set in order", "statement": "Within each PASS of run(), the consideration sets are considered in the order of consideration_queue, starting with the first and without gaps; a PASS ends before the last one only if a termination condition is satisfied.", "quantifier": "every graph, conditions, run and pass", "why_tests_cant": "A pass may end early in ways that depend on data; tests see a few passes of a few graphs.", "anchors": ["src/graph_scheduler/scheduler.py: Scheduler.run"]}
{"id": "C58", "title": "Time scales of termination conditions may be given by name", "statement": "A dict of termination conditions may use the names of the time scales, in upper or lower case, instead of TimeScale members, in the constructor, in assignments to termination_conds and in run().", "quantifier": "every dict with names as keys", "why_tests_cant": "All dicts and all three entry points; whether it works depends on which other keys the dict has.", "anchors": ["src/graph_scheduler/scheduler.py:Scheduler._parse_termination_conditions"]}
{"id": "C59", "title": "Surplus arguments do not break a condition's function", "statement": "If calling a user function with some positional and keyword arguments is legal, then a Condition made from it with further positional arguments, and evaluated with further keyword arguments, is still evaluated without a TypeError: surplus arguments are dropped.", "quantifier": "every signature and argument list", "why_tests_cant": "All signatures: the outcome depends on parameter kinds and defaults in combination.", "anchors": ["src/graph_scheduler/utilities.py:prune_unused_args", "src/graph_scheduler/utilities.py:call_with_pruned_args"]}
{"id": "C60", "title": "TimeInterval(repeat, start, end) executes its node at exactly the times it describes", "statement": "In absolute-time mode a node with TimeInterval(repeat, start, end) is in an execution set exactly if the set is chosen from the node's consideration set at a time that is within [start, end] (or the open variants) and on the grid of the repeat interval. In EXACT_TIME mode, and with a single consideration set, the grid begins at start, so that a node with an inclusive start executes at every start + k * repeat up to end.", "quantifier": "every graph, interval, mode, starting time and run length", "why_tests_cant": "All times and intervals; the grid depends on the mode, the number of consideration sets and the other conditions.", "anchors": ["src/graph_scheduler/condition.py:TimeInterval", "src/graph_scheduler/scheduler.py:Scheduler.run"]}
{"id": "C61", "title": "EveryNCalls(d, n) executes its node exactly at every n-th execution of d", "statement": "If a node b has the condition EveryNCalls(d, n), n >= 1, and d is in an earlier consideration set, then in every run in which only the last pass may end before b is considered, b executes exactly at the n-th, 2n-th, 3n-th, ... execution of d, whatever the condition of d is: at each execution of b, d has executed exactly n times as often as b, and between passes b has executed floor(k / n) times if d has executed k times. With the default termination conditions only the last pass can end early.", "quantifier": "every graph, every condition of d and of all other nodes, every n, run and moment", "why_tests_cant": "All interleavings of executions of d with passes and all n; tests check a few rates.", "anchors": ["src/graph_scheduler/condition.py:EveryNCalls", "src/graph_scheduler/scheduler.py:Scheduler.run"]}
{"id": "C62", "title": "Nodes governed by EveryNCalls execute in every r-th pass, for a rate r that can be computed", "statement": "Give each node with the condition Always, or a root without a condition, the rate 1; a node that waits for k_i calls of d_i (EveryNCalls(d, k), All of several, or the implicit condition with one call of each sender) the largest of k_i * rate(d_i). Then a node executes in the p-th pass of a run iff its rate divides p. A run with the default termination conditions of a scheduler with only such nodes returns, after as many passes as the largest rate.", "quantifier": "every graph, every assignment of such conditions, every run and pass", "why_tests_cant": "The claim is about every pass of every run and every combination of rates; it involves how counts of several senders drift against each other.", "anchors": ["src/graph_scheduler/condition.py:EveryNCalls", "src/graph_scheduler/condition.py:All", "src/graph_scheduler/scheduler.py:Scheduler.run", "src/graph_scheduler/scheduler.py:Scheduler._validate_conditions"]}
{"id": "C63", "title": "WhenFinished conditions follow what the nodes say", "statement": "WhenFinished(d) is satisfied iff d.is_finished(id) is true; WhenFinishedAny(A, B, ...) behaves exactly as Any(WhenFinished(A), WhenFinished(B), ...) and WhenFinishedAll as All(...), including exceptions and the nodes that are not asked; without arguments they are about all nodes of the scheduler; a node that cannot be asked is reported as ConditionError. In a run, the owner is in the set chosen from its consideration set iff the answers at the beginning of the choice satisfy the condition.", "quantifier": "every list of nodes, every behaviour of is_finished (including exceptions), every run", "why_tests_cant": "Arbitrary answers that change in time, in any combination.", "anchors": ["src/graph_scheduler/condition.py:WhenFinished", "src/graph_scheduler/condition.py:WhenFinishedAny", "src/graph_scheduler/condition.py:WhenFinishedAll", "src/graph_scheduler/scheduler.py:Scheduler.run"]}
{"id": "C64", "title": "Threshold compares the right number in the right way", "statement": "Threshold(dependency, parameter, threshold, comparator, indices, atol, rtol) can be constructed iff the parameter exists and the comparator is one of the six, and raises ConditionError otherwise. When evaluated it takes the current value of the parameter (from the custom getter, if any), follows the indices in order (negative ones from the end, keys of dicts, the value of a TimeScale), and is satisfied iff the number reached compares with the threshold, where == and != mean |x - t| <= atol + rtol * |t| and its negation, and the other comparators ignore the tolerances, which the constructor says in a warning exactly if a tolerance was given and cannot matter; it raises if no number is reached. In a run its owner is chosen iff the comparison holds at the beginning of the choice.", "quantifier": "every nested value, index list, comparator, tolerance, threshold and run", "why_tests_cant": "All nested values and all real tolerances.", "anchors": ["src/graph_scheduler/condition.py:Threshold", "src/graph_scheduler/condition.py:comparison_operators"]}
{"id": "C65", "title": "Conditions for the start of a unit of time select exactly that start", "statement": "AtEnvironmentStateUpdateStart() is satisfied exactly in the first pass of an environment state update, AtEnvironmentStateUpdateNStart(n) exactly in the first pass of the n-th environment state update of the sequence, AtEnvironmentSequenceStart() exactly in the first environment state update of a sequence, AtEnvironmentSequenceNStart(n) exactly in the first environment state update of the n-th sequence.", "quantifier": "every history of the clock, every n and run", "why_tests_cant": "All histories, including abandoned runs, and all n.", "anchors": ["src/graph_scheduler/condition.py:AtEnvironmentStateUpdateStart", "src/graph_scheduler/condition.py:AtEnvironmentStateUpdateNStart", "src/graph_scheduler/condition.py:AtEnvironmentSequenceStart", "src/graph_scheduler/condition.py:AtEnvironmentSequenceNStart"]}
{"id": "C66", "title": "A condition that does not concern nodes considered together is decided once", "statement": "If the condition of a node does not depend on calls of nodes of its own consideration set (conditions on time, JustRan, WhenFinished..., Threshold, functions of these, call counts of nodes of other sets, and All, Any, Not of them), then the node is in the set chosen from its consideration set iff the condition is satisfied when the choice begins; which nodes are selected before it, and how often it is considered again, does not matter.", "quantifier": "every graph, conditions, run, set and node", "why_tests_cant": "The choice loops until nothing changes; the claim is about every iteration order and every interleaving.", "anchors": ["src/graph_scheduler/scheduler.py:Scheduler.run"]}
{"id": "C67", "title": "A duration means what was written", "statement": "A duration given to TimeInterval or TimeTermination as a number with a unit, as a text with or without a unit, or as a quantity is stored as a duration that equals the one written and, if it is a whole number of some known unit not larger than the written one, as a whole number of the largest such unit. All ways to write the same number of the same unit give the same result; the stored duration is never off by more than half of the eighth decimal place of the stored unit.", "quantifier": "every number, text, unit and registry of units", "why_tests_cant": "All rational numbers and all units; rounding only shows for particular magnitudes.", "anchors": ["src/graph_scheduler/condition.py:_parse_absolute_unit", "src/graph_scheduler/condition.py:_reduce_quantity_to_integer", "src/graph_scheduler/condition.py:_quantity_as_integer", "src/graph_scheduler/condition.py:_get_pint_quantity"]}
{"id": "C68", "title": "TimeInterval rejects exactly the intervals that end before they start", "statement": "TimeInterval(repeat, start, end) raises ConditionError if none of the three is given, and if start is a longer duration than end; otherwise it can be constructed, and either end may be missing.", "quantifier": "every combination of arguments, in every notation", "why_tests_cant": "All pairs of durations in all notations.", "anchors": ["src/graph_scheduler/condition.py:TimeInterval"]}
{"id": "C69", "title": "The common interval of durations in different units is their greatest common divisor", "statement": "The interval between consideration sets in absolute time is computed from the greatest common divisor of the durations of all absolute conditions, as durations: it does not depend on the units in which they are written, every duration is a whole multiple of it, and every other common divisor divides it.", "quantifier": "every finite list of durations in every combination of units", "why_tests_cant": "All combinations of magnitudes and units.", "anchors": ["src/graph_scheduler/scheduler.py:Scheduler._get_absolute_consideration_set_execution_unit"]}
{"id": "C70", "title": "Conditions that mean the same can replace each other", "statement": "Replacing the conditions of nodes and termination conditions by ones that mean the same does not change a run: the same events in the same order, the same yielded sets, the same exceptions, the same counts, clocks and history. Means the same: a condition in different units of time; AfterCall(d, n) and AfterNCalls(d, n+1); Not(BeforeNCalls(d, n)) and AfterNCalls(d, n); the corresponding pairs for passes, consideration set executions, environment state updates and sequences; WhenFinishedAny/All and Any/All of WhenFinished; All or Any of one condition and the condition; de Morgan's laws; the components of All or Any in another order if they neither raise nor count; double negation of conditions that are not on absolute time; and any of these inside All, Any, Not and NWhen.", "quantifier": "every graph, scheduler history, consumer, number of steps and nesting of conditions", "why_tests_cant": "All schedules and all pairs of conditions.", "anchors": ["src/graph_scheduler/condition.py:All", "src/graph_scheduler/condition.py:Any", "src/graph_scheduler/condition.py:Not", "src/graph_scheduler/condition.py:NWhen", "src/graph_scheduler/condition.py:AfterCall", "src/graph_scheduler/condition.py:AfterNCalls", "src/graph_scheduler/condition.py:AfterPass", "src/graph_scheduler/condition.py:AfterNPasses", "src/graph_scheduler/condition.py:TimeInterval", "src/graph_scheduler/scheduler.py:Scheduler.run"]}
{"id": "C71", "title": "Termination conditions only decide when a run ends", "statement": "As long as the termination conditions of two runs that differ in nothing else have not been satisfied, the two runs go through the same events, yield the same sets and leave the same counts, clocks and history. If the termination conditions stay satisfied until the end of a pass (they are combinations of conditions on calls over a scale coarser than PASS, of After... conditions on time, and of conditions on finished nodes, attributes and the last set), what a run yields is a prefix of what the same run with Never() as termination conditions yields, of two such runs one yields a prefix of the other, and a run that returns yields nothing after its termination conditions were first satisfied.", "quantifier": "every graph, scheduler history, assignment of conditions to nodes, consumer, number of steps and pair of termination conditions (not on absolute time; for the first claim, sharing no objects with conditions of nodes)", "why_tests_cant": "All schedules and all termination conditions.", "anchors": ["src/graph_scheduler/scheduler.py:Scheduler.run", "src/graph_scheduler/scheduler.py:Scheduler._parse_termination_conds", "src/graph_scheduler/scheduler.py:Scheduler.default_termination_conds", "src/graph_scheduler/condition.py:AllHaveRun", "src/graph_scheduler/condition.py:AfterNPasses", "src/graph_scheduler/condition.py:Never"]}
{"id": "C72", "title": "A part of the graph that nothing outside influences keeps its schedule", "statement": "If two schedulers agree on a set of nodes (same places in the consideration queue, which follows if the set contains the senders of its nodes and these are the same in both graphs, same conditions, which look only at nodes of the set, at passes and at coarser units of time, or are NWhen of such a condition and belong to one node only, same counts), then whatever other nodes, edges and conditions each of them has, and however their runs are terminated, every pass that comes to its end in both runs yields the same sets of nodes of that part in the same order, once other nodes are left out.", "quantifier": "every pair of schedulers, set of nodes, pair of termination conditions that are not satisfied so far, number of passes, and consumers whose effect on nodes of the part depends on what was yielded of the part", "why_tests_cant": "All graphs, parts, assignments of conditions and schedules.", "anchors": ["src/graph_scheduler/scheduler.py:Scheduler.run", "src/graph_scheduler/scheduler.py:Scheduler.consideration_queue", "src/graph_scheduler/condition.py:ConditionSet.add_condition", "src/graph_scheduler/condition.py:EveryNCalls", "src/graph_scheduler/condition.py:JustRan"]}
{"id": "C73", "title": "An alias of a time scale is the scale itself", "statement": "After set_time_scale_alias(name, target) with a name that is no time scale yet, TimeScale.<name> is the target, the attribute of that name in lower case reads and writes the target's value on every Time (and reads it on a SimpleTime that has it), Time(<name>=v) equals Time(<target>=v), the repr of a Time shows the alias, and every public class whose name contains the scale's class name is also available under the name with the alias's class name in its place; no other name changes. A name that is an alias already is refused with ValueError and nothing changes.", "quantifier": "every name, time scale, earlier aliases and contents of the package", "why_tests_cant": "All names, including those with repeated or overlapping occurrences.", "anchors": ["src/graph_scheduler/time.py:set_time_scale_alias", "src/graph_scheduler/time.py:Time.__init__", "src/graph_scheduler/time.py:Time._time_repr", "src/graph_scheduler/time.py:SimpleTime", "src/graph_scheduler/time.py:_time_scale_to_class_str"]}
{"id": "C74", "title": "Removing an alias of a time scale undoes setting it", "statement": "If the scale has no other alias and nothing has a name containing that of the alias, then set_time_scale_alias followed by remove_time_scale_alias leaves every public name, __all__ and attribute as it was; of two aliases of different scales either can be removed first. Whatever aliases are set and removed, no two scales have the same alias and the assertion in remove_time_scale_alias never fails. Removing an unknown name does nothing.", "quantifier": "every name, time scale, contents of the package, and history of setting and removing aliases", "why_tests_cant": "All names and histories.", "anchors": ["src/graph_scheduler/time.py:set_time_scale_alias", "src/graph_scheduler/time.py:remove_time_scale_alias"]}
{"id": "C75", "title": "A run does not depend on what ran before it", "statement": "Let every condition (of nodes and for termination) be a combination by All, Any, Not of conditions that look no further back than the beginning of the current environment state update (counts of calls and times in the update or in finer units, EveryNCalls, states of nodes, not absolute time), or such a condition under NWhen that was satisfied equally often. Then two runs that begin at the same point of an environment state update go through the same events and yield the same sets, as long as the outside world answers the same: whatever the counts, histories and earlier updates of the two schedulers, and whatever execution ids are used. In particular a complete run can be followed by another, every one of any number of successive complete runs yields the same sets, and a run under a new execution id yields what one under an old id yields.", "quantifier": "every graph, conditions of that kind, consumers, histories, execution ids and number of runs", "why_tests_cant": "Histories and runs are unbounded; tests compare a few runs.", "anchors": ["src/graph_scheduler/scheduler.py:Scheduler.run", "src/graph_scheduler/scheduler.py:Scheduler._init_counts", "src/graph_scheduler/scheduler.py:Scheduler._reset_counts_total", "src/graph_scheduler/scheduler.py:Scheduler._reset_counts_useable", "src/graph_scheduler/time.py:Clock"]}
{"id": "C76", "title": "Environment sequences advance exactly when end_environment_sequence is called", "statement": "In every history of use of a new scheduler, and for every execution id, the clock shows as many environment sequences as end_environment_sequence was called for that id, and as many environment state updates in the current sequence as runs under that id reached their end since then (without skip_environment_state_update_time_increment); abandoned runs and anything done under other ids do not count. The conditions on environment sequences, and those on environment state updates within ENVIRONMENT_SEQUENCE or LIFE, hold exactly according to these numbers. end_environment_sequence always succeeds and changes only the clock of its id.", "quantifier": "every graph, history of runs (complete, abandoned, failed or interleaved), calls of get_clock and end_environment_sequence, changes of conditions, execution ids and n", "why_tests_cant": "Histories are unbounded and runs may be interleaved arbitrarily.", "anchors": ["src/graph_scheduler/scheduler.py:Scheduler.end_environment_sequence", "src/graph_scheduler/scheduler.py:Scheduler.run", "src/graph_scheduler/scheduler.py:Scheduler.get_clock", "src/graph_scheduler/condition.py:AtEnvironmentSequence", "src/graph_scheduler/condition.py:AfterNEnvironmentStateUpdates"]}
{"id": "C77", "title": "Structural conditions decide the order of execution", "statement": "Let structural conditions of the built-in classes be added to and removed from a scheduler, none of these calls raising. In every pass of every run that follows, whatever the basic conditions, a sender in the resulting graph is never selected together with or after one of its receivers. In particular, for the condition added last: the owner of an AfterNodes is not followed by a subject and not selected with one; the subjects of a BeforeNodes are not followed by the owner; the owner and the subject of a WithNode are never in two different sets; add_graph_edge(sender, receiver) puts the sender first. With no basic conditions and the default termination conditions, a run yields exactly the layers of the resulting graph (if it is acyclic and without self-edges), each node of the original graph once.", "quantifier": "every graph, sequence of structural conditions and reads, basic conditions, run and pass", "why_tests_cant": "Graphs, sequences of conditions and runs are unbounded; tests compare the queue for a few graphs and conditions.", "anchors": ["src/graph_scheduler/condition.py:BeforeNodes", "src/graph_scheduler/condition.py:AfterNodes", "src/graph_scheduler/condition.py:WithNode", "src/graph_scheduler/scheduler.py:Scheduler.add_graph_edge", "src/graph_scheduler/scheduler.py:Scheduler._handle_modified_structural_conditions", "src/graph_scheduler/scheduler.py:Scheduler.run"]}
{"id": "C78", "title": "A run of N passes", "statement": "A run whose termination condition is AfterNPasses(N) in the current environment state update (or sequence, or life), with the other termination condition Never, returns after exactly the number of passes missing to N in that unit, whatever the conditions of the nodes are and whatever they evaluate to. Each of these passes considers every consideration set, in order: no pass is cut short. It never begins more passes, and left alone it comes to an end (it returns, or a condition raises).", "quantifier": "every graph, all conditions of nodes, every N, unit and clock history, every consumer that leaves the clock and the queue alone", "why_tests_cant": "Conditions, N and histories are unbounded.", "anchors": ["src/graph_scheduler/scheduler.py:Scheduler.run", "src/graph_scheduler/condition.py:AfterNPasses", "src/graph_scheduler/time.py:Clock"]}
{"id": "C79", "title": "The complete schedule of nodes with rates", "statement": "Let every node have the condition Always, EveryNCalls(d, k), an All of these, or no condition, waiting for nodes in earlier consideration sets. Then the sets yielded by a run that is not in absolute-time mode are known in full: the p-th pass yields of every consideration set, in order, the nodes whose rate divides p, leaving out empty sets, and one empty set if there is no such node. A run of N passes yields exactly the sets of N such passes. A run with the default termination conditions yields the sets up to the one with which every node has executed, and no more.", "quantifier": "every graph, such conditions, consumers that leave the scheduler alone, every N", "why_tests_cant": "Graphs, rates and runs are unbounded; tests compare a few schedules.", "anchors": ["src/graph_scheduler/scheduler.py:Scheduler.run", "src/graph_scheduler/condition.py:EveryNCalls", "src/graph_scheduler/condition.py:AllHaveRun", "src/graph_scheduler/condition.py:AfterNPasses"]}
{"id": "C80", "title": "Deleting an execution context", "statement": "Deleting what a scheduler stores under an execution id leaves nothing behind under that id and everything else as it was: whatever happened before, a run under that id with a context made from scratch does exactly what the first run under it would have done (except for what NWhen objects counted). Runs under other ids are not affected. When the context from which new contexts are copied has been deleted, the next run that needs it raises SchedulerError.", "quantifier": "every scheduler, id and history of operations under any ids", "why_tests_cant": "Histories before the deletion are unbounded; the test deletes one context once.", "anchors": ["src/graph_scheduler/scheduler.py:Scheduler._delete_counts", "src/graph_scheduler/scheduler.py:Scheduler._init_counts", "src/graph_scheduler/scheduler.py:Scheduler._init_clock"]}
{"id": "C81", "title": "A reference scheduler that remembers only what was yielded", "statement": "The sequence of sets a run yields is a function of the graph, the conditions and the sets yielded before: it is what a reference scheduler computes that keeps no counters and no clock. Before every set the reference scheduler decides each condition from the list of the sets yielded so far in this pass, this run and all earlier runs under the execution id (how many passes, sets and runs there were, how often a node executed, in which order), adds due nodes until nothing changes, and stops when a termination condition holds. In a run in absolute time it also yields empty sets, and the time is the start time plus one interval for each set yielded.", "quantifier": "every graph, every assignment of count, pass, set, run, JustRan, AllHaveRun, EveryNCalls, WhenFinished, Threshold, TimeInterval and TimeTermination conditions, functions of the outside world (While, WhileNot) and their All/Any/Not combinations to nodes and termination, NWhen of such a condition as the condition of a node, runs in absolute time and others, any number of earlier complete runs, every moment of the run, every behaviour of the consumer", "why_tests_cant": "It states the whole schedule of every scheduler of this kind; a test can compare single schedules only.", "anchors": ["src/graph_scheduler/scheduler.py:Scheduler.run", "src/graph_scheduler/scheduler.py:Scheduler._init_counts", "src/graph_scheduler/condition.py:Condition", "src/graph_scheduler/time.py:Clock"]}
{"id": "C82", "title": "The names of nodes do not matter", "statement": "If every node of a graph, of the conditions and of the run's arguments is replaced by another name, one to one, the scheduler behaves the same with the new names: it has the renamed consideration queue, accepts or refuses the renamed run in the same way, and at every moment of the run it has yielded the renamed sets; it does nothing else.", "quantifier": "every one-to-one renaming to nodes of any kind, every graph, all conditions (user functions included), every termination condition, every behaviour of the consumer, every moment of the run", "why_tests_cant": "It quantifies over all graphs and all renamings; a test fixes the names. Code that sorts or compares nodes, or looks them up by something other than equality, breaks it for some names only.", "anchors": ["src/graph_scheduler/scheduler.py:Scheduler.run", "src/graph_scheduler/condition.py:Condition"]}
{"id": "C83", "title": "The schedule depends only on what the graph and the conditions say", "statement": "Two schedulers with the same nodes, the same edges and the same conditions have the same schedule, however they are written down: the order of the nodes in the graph, of the senders of a node and of the calls of add_condition does not matter, nor which condition objects are used, as long as in each consideration set choosing one node can make the condition of another true but not false. At every position the runs yield sets with the same members, they have the same passes, and the clocks show the same times. Nodes that a symmetry of graph and conditions exchanges always execute together.", "quantifier": "every pair of graphs with the same nodes and edges, all conditions of the reference scheduler (All, Any, Not, NWhen, call counts, time, thresholds, user functions of the outside world) whose sets are settled, any number of earlier runs, both runs in absolute time or not, every moment", "why_tests_cant": "Python sets have no fixed order, so a test sees one order of the nodes in each run; the claim compares all orders and all ways to write the same problem.", "anchors": ["src/graph_scheduler/scheduler.py:Scheduler.run", "src/graph_scheduler/scheduler.py:Scheduler.__init__", "src/graph_scheduler/condition.py:ConditionSet.add_condition", "src/graph_scheduler/condition.py:ConditionSet.conditions_basic"]}
{"id": "C84", "title": "No condition is lost silently", "statement": "Whatever is done with a condition set, also if calls raise: a node keeps its basic condition unless a warning says that exactly this condition of this node is replaced, or the user asks for the removal of this condition or of the condition of this node. A structural condition stays in the order of application unless its removal, or the removal of a node's only condition, is asked for. A removal that finds nothing warns, and only then.", "quantifier": "every sequence of add_condition, add_condition_set, item assignment and remove_condition calls, from every condition set, whether calls raise or not", "why_tests_cant": "Which condition is replaced by which depends on the whole history of additions, removals and failed calls; a test sees one history.", "anchors": ["src/graph_scheduler/condition.py:ConditionSet.add_condition", "src/graph_scheduler/condition.py:ConditionSet.remove_condition", "src/graph_scheduler/condition.py:ConditionSet.add_condition_set", "src/graph_scheduler/condition.py:ConditionSet.__setitem__"]}
{"id": "C85", "title": "A cyclic graph is announced, and what warnings say about the graph is true", "statement": "If the graph of a scheduler has a cycle when it is read, then the constructor or one of the calls so far, the read included, has warned about a cycle; conversely a warning about a cycle means that the base graph, transformed by the first k structural conditions for some k, has a cycle. BeforeNodes, WithNode and AfterNodes say that the owner is already in place exactly if it is so for a node of the condition, they name exactly those nodes, an acyclic graph then has the owner in the consideration queue where the warning says, and if the condition is said to be ignored the graph stays as it is. RemoveEdgeFrom says that there is no edge exactly if there is none.", "quantifier": "every base graph, every sequence of additions, removals and reads, also failing ones, all structural conditions, every graph a condition is applied to", "why_tests_cant": "Cycles can come from any combination of conditions and removals; tests check single warnings for fixed graphs.", "anchors": ["src/graph_scheduler/scheduler.py:Scheduler._push_graph", "src/graph_scheduler/scheduler.py:Scheduler._handle_modified_structural_conditions", "src/graph_scheduler/condition.py:_GSCReposition._validate_graph", "src/graph_scheduler/condition.py:RemoveEdgeFrom._process"]}
{"id": "C86", "title": "Warnings are given whenever they should be, and name the cause", "statement": "If a condition depends on the node it is assigned to, there is a warning. A warning about a cycle names the condition that makes the cycle. If a run in exact-time mode warns that graph structure conditions have no effect, they have none.", "quantifier": "every condition, condition set, base graph and structural condition", "why_tests_cant": "A missing or misleading warning shows only for the combinations nobody tried.", "anchors": ["src/graph_scheduler/condition.py:Condition._validate_owner", "src/graph_scheduler/condition.py:Condition.owner", "src/graph_scheduler/scheduler.py:Scheduler._push_graph", "src/graph_scheduler/scheduler.py:Scheduler._validate_conditions"]}
{"id": "C87", "title": "The options of a structural condition mean what is written", "statement": "BeforeNode(s), WithNode and AfterNode(s) may be given an operation as a member of Operation, or by its name in any mixture of upper and lower case; the operation for the subjects may be one for all or a dict with an entry for each subject, and an option that is left out has the default of the class. If the options mean operations in this sense, the condition is created, and modify_graph does to every graph what it does with exactly those operations, also after any number of further conditions have been created with the same dicts.", "quantifier": "every class, all subjects and options, every graph and owner, every later sequence of constructor calls", "why_tests_cant": "The product of classes, spellings, forms of options and shared dicts is not testable; nor is equality of the effect on all graphs.", "anchors": ["src/graph_scheduler/condition.py:_GSCWithOperations.__init__", "src/graph_scheduler/condition.py:_GSCWithOperations._parse_operation_arg", "src/graph_scheduler/condition.py:_GSCWithOperations._handle_subject_arg", "src/graph_scheduler/condition.py:_GSCWithOperations._get_subject_operation", "src/graph_scheduler/condition.py:Operation"]}
{"id": "C88", "title": "Mistakes in the options of a structural condition are rejected when it is created", "statement": "A wrong number of subjects, an option the class does not have, a dict that does not name exactly the subjects, or an option that is not an operation or the name of one is an error when the condition is created. In any case a condition with an option that means no operation never transforms a graph.", "quantifier": "every class, all subjects and options, every graph and owner", "why_tests_cant": "There are infinitely many wrong options; whether one is noticed depends on the graph the condition meets later.", "anchors": ["src/graph_scheduler/condition.py:_GSCWithOperations._handle_subject_arg", "src/graph_scheduler/condition.py:_GSCUsingNodes._validate_nodes", "src/graph_scheduler/condition.py:_GSCSingleNode._validate_nodes", "src/graph_scheduler/condition.py:_GSCWithOperations._process"]}
{"id": "C89", "title": "Creating conditions leaves their arguments and each other alone", "statement": "Creating a structural condition does not change the dicts it is given, and does not change what any other condition does, also if they share dicts and also if the call fails. What is done to a dict later does not change the condition.", "quantifier": "every history of constructor calls with shared dicts, succeeding or failing, every graph", "why_tests_cant": "Interference between objects shows only for particular histories of sharing.", "anchors": ["src/graph_scheduler/condition.py:_GSCWithOperations._handle_subject_arg", "src/graph_scheduler/condition.py:_GSCWithOperations.__init__"]}
{"id": "C90", "title": "A run raises only what a condition raises, and sensible conditions never do", "statement": "If run raises an exception after it has begun, then evaluating a termination condition of the run or the condition of a node raises that exception in that state. In a scheduler of an acyclic graph a run can begin under every execution id, and it never raises, however long it goes on and whatever the nodes answer, if the conditions given make sense: they count calls of nodes of the scheduler, repeat with a non-zero period, do not count time steps per pass, use JustRan only after something was yielded, ask only nodes that answer, compare only numbers, and call only functions that return. The same holds for all later runs. Without one of these requirements every evaluation of the condition raises.", "quantifier": "every acyclic graph, every assignment of conditions built from the library's conditions and user functions, every execution id, every behaviour of the nodes, every number of steps and runs", "why_tests_cant": "Absence of exceptions in all states of all runs of all schedulers is a universal statement; a test shows one run.", "anchors": ["src/graph_scheduler/scheduler.py:Scheduler.run", "src/graph_scheduler/scheduler.py:Scheduler._validate_run_state", "src/graph_scheduler/scheduler.py:Scheduler._init_counts", "src/graph_scheduler/condition.py:Condition.is_satisfied"]}
{"id": "C91", "title": "Saying it twice changes nothing", "statement": "Adding a second structural condition like one just added, for the same owner, succeeds whenever the first addition did, and changes neither nodes nor edges of the graph: AddEdgeTo, RemoveEdgeFrom, BeforeNodes, AfterNodes and WithNode with all their options put a graph into a state in which they have nothing to do.", "quantifier": "every graph and history of the scheduler, every built-in structural condition, owner, subjects and options, every enumeration of cycles", "why_tests_cant": "Idempotence is a statement about all graphs, histories and option combinations; the classes have nine operations for each of four options and three flags.", "anchors": ["src/graph_scheduler/scheduler.py:Scheduler.add_condition", "src/graph_scheduler/condition.py:_GSCReposition._modify_graph", "src/graph_scheduler/condition.py:AddEdgeTo", "src/graph_scheduler/condition.py:RemoveEdgeFrom"]}
{"id": "C92", "title": "For each edge the last call decides", "statement": "Any sequence of add_graph_edge and remove_graph_edge calls for nodes of the graph succeeds and keeps the nodes; afterwards an edge is present exactly if the last call about it added it, or it was present before and no call is about it. So calls about different edges can be made in any order.", "quantifier": "every graph and history of the scheduler, every finite sequence of calls in every order", "why_tests_cant": "All sequences and all permutations of calls on all graphs; each call rebuilds part of a stack of graphs.", "anchors": ["src/graph_scheduler/scheduler.py:Scheduler.add_graph_edge", "src/graph_scheduler/scheduler.py:Scheduler.remove_graph_edge"]}
{"id": "C93", "title": "Adding an edge only delays, removing one only advances", "statement": "add_graph_edge moves no node to an earlier set of consideration_queue, remove_graph_edge none to a later set, and both move only the receiver of the edge and nodes that depend on it. More generally, of two acyclic graphs with the same nodes the one with more edges has every node at the same or a later position.", "quantifier": "every graph and history of the scheduler, every pair of nodes, every node, every position", "why_tests_cant": "Positions are longest chains of dependencies; the claim is about all graphs.", "anchors": ["src/graph_scheduler/scheduler.py:Scheduler.add_graph_edge", "src/graph_scheduler/scheduler.py:Scheduler.remove_graph_edge", "src/graph_scheduler/scheduler.py:Scheduler._build_consideration_queue"]}
{"id": "C94", "title": "A custom structural condition calls its function as documented", "statement": "CustomGraphStructureCondition calls the function on a copy of the graph made of new sets, with the condition itself as first argument exactly if the first parameter is called self, and adding it to a scheduler makes the returned graph the scheduler's graph, or raises what the function raises. A function that changes only the graph it is given does not change the graph the condition is applied to. A parameter self in another place is a ConditionError, as are values that are not callable and a missing owner.", "quantifier": "every graph, every function signature, every function body, every attribute, every history of the scheduler", "why_tests_cant": "User functions are arbitrary; tests can try only some signatures and bodies.", "anchors": ["src/graph_scheduler/condition.py:CustomGraphStructureCondition", "src/graph_scheduler/condition.py:GraphStructureCondition.modify_graph", "src/graph_scheduler/utilities.py:clone_graph"]}
{"id": "C95", "title": "Conditions changed during a run are obeyed from the next set on", "statement": "A basic condition set with add_condition while a run is suspended is the node's condition from then on: every later set of the run contains the node only if the new condition was satisfied when it was put in, and lacks it only if the new condition was not satisfied; other nodes keep their conditions. If the condition is removed with remove_condition, the node has its default condition again.", "quantifier": "every run, every moment at which it is suspended, every change made by the user, every node and condition", "why_tests_cant": "A run can be suspended after every set, in every state, and the user can call anything in between.", "anchors": ["src/graph_scheduler/scheduler.py:Scheduler.run", "src/graph_scheduler/scheduler.py:Scheduler.add_condition", "src/graph_scheduler/scheduler.py:Scheduler.remove_condition", "src/graph_scheduler/condition.py:ConditionSet.add_condition"]}
{"id": "C96", "title": "A graph changed during a run", "statement": "If the graph is changed while a run is suspended (add_graph_edge, remove_graph_edge, structural conditions), the run goes on with the new consideration_queue: each pass considers the sets in order, and no node is considered twice in a pass or left out of it, unless a termination condition is satisfied.", "quantifier": "every run, every moment at which it is suspended, every change of the graph, every pass", "why_tests_cant": "The number of interleavings of changes and sets is unbounded, and the effect depends on where in the pass the change happens.", "anchors": ["src/graph_scheduler/scheduler.py:Scheduler.run", "src/graph_scheduler/scheduler.py:Scheduler.consideration_queue", "src/graph_scheduler/scheduler.py:Scheduler.add_graph_edge", "src/graph_scheduler/scheduler.py:Scheduler.remove_graph_edge"]}
{"id": "C97", "title": "NWhen is a quota over the whole life of the scheduler", "statement": "A node whose condition is NWhen(c, n) is executed at most n times under an execution id, over any number of runs, completed, abandoned or interleaved; it does not start anew with a run. As long as no run raises and the object is used for this node only, the quota is used by executions of the node and by nothing else: whenever the node is considered it is executed exactly if c is satisfied and it was executed fewer than n times before under that id. When the quota is used up, a run under that id with the default termination conditions never ends.", "quantifier": "every graph, every c and n, every node, every history of runs under any ids and of the user's calls in between", "why_tests_cant": "The count is kept in the condition object across runs and ids; histories are unbounded.", "anchors": ["src/graph_scheduler/condition.py:NWhen._satisfied", "src/graph_scheduler/condition.py:NWhen.__init__", "src/graph_scheduler/scheduler.py:Scheduler.run", "src/graph_scheduler/condition.py:AllHaveRun"]}
{"id": "C98", "title": "How often conditions are evaluated", "statement": "When a set is chosen, the condition of every node of the consideration set is evaluated at least once, that of no other node, and never that of a node already put into the set; each is evaluated at most once more than nodes are put into the set, so exactly once if there are none. In one choice from m nodes there are at most 1 + 2 + ... + m evaluations (a bound that is reached); from one yielded set to the next at most twice the sum of that over all consideration sets.", "quantifier": "every graph, all conditions, every state of a run, every consideration set, every moment at which the run is suspended", "why_tests_cant": "The repetition depends on the conditions and on the order of the nodes in the set; user functions in conditions can have effects, so the number of calls is observable.", "anchors": ["src/graph_scheduler/scheduler.py:Scheduler.run", "src/graph_scheduler/scheduler.py:Scheduler.consideration_queue"]}
{"id": "C99", "title": "A run waits for ever exactly if nodes wait for each other", "statement": "Take a scheduler whose conditions only wait (Always, Never, AfterPass, AfterNPasses, AfterCall, AfterNCalls, AllHaveRun, EveryNCalls, each with its default time scale, and All and Any of these; no condition means waiting for the senders). Call a set of its nodes stuck if, for each of them, what it waits for cannot come from the nodes outside the set alone (a node with Never is stuck by itself). Nodes of a stuck set never execute, and a run with the default termination conditions then never returns; every node that is in no stuck set is executed again and again, at least once in any M successive passes for some M. A run with the default termination conditions, left alone, returns if and only if there is no stuck set.", "quantifier": "every graph, all such conditions of any nesting and with any numbers, every scheduler state between runs, every run outside absolute-time mode (the first statements: any termination conditions, also absolute time)", "why_tests_cant": "Whether a run ends cannot be observed by running it; which nodes block which depends on the whole set of conditions.", "anchors": ["src/graph_scheduler/scheduler.py:Scheduler.run", "src/graph_scheduler/condition.py:AfterNCalls", "src/graph_scheduler/condition.py:AfterCall", "src/graph_scheduler/condition.py:EveryNCalls", "src/graph_scheduler/condition.py:AllHaveRun", "src/graph_scheduler/condition.py:AfterPass", "src/graph_scheduler/condition.py:Any", "src/graph_scheduler/condition.py:All", "src/graph_scheduler/condition.py:ConditionSet"]}
{"id": "C100", "title": "A scheduler's conditions handed to another scheduler mean the same there", "statement": "A scheduler made with the conditions of another scheduler has for every node the same basic condition and the same structural conditions in the same order, and with the same base graph it has the same graph, consideration queue and indices. Adding a condition set to itself ends.", "quantifier": "every graph, every sequence of additions, removals and reads before the set is handed over, all basic and structural conditions", "why_tests_cant": "The set is iterated owner by owner, in an order that depends on the history of the set; the claim is about all histories and all conditions.", "anchors": ["src/graph_scheduler/condition.py:ConditionSet.add_condition_set", "src/graph_scheduler/condition.py:ConditionSet.conditions", "src/graph_scheduler/scheduler.py:Scheduler.add_condition_set", "src/graph_scheduler/scheduler.py:Scheduler.__init__"]}
{"id": "C101", "title": "Schedulers in one program do not disturb each other", "statement": "In a program with several schedulers no two of which use the same condition object, each scheduler does what it would do if nothing were done with the other ones: its runs yield the same sets at the same internal points and fail in the same way, and all its counters, clocks and histories are the same, however calls and steps of generators of different schedulers are interleaved. The proviso is needed: schedulers that share an NWhen object use up each other's quota, and giving a condition object to a second scheduler can make runs of the first one raise.", "quantifier": "any number of schedulers, every finite program of additions of conditions, calls of run, steps of any generator and other changes of scheduler data, in every interleaving", "why_tests_cant": "The claim quantifies over all programs, all conditions and all interleavings; the schedulers share one heap of condition objects, and implicit conditions get other identities when other schedulers made objects in between.", "anchors": ["src/graph_scheduler/scheduler.py:Scheduler.run", "src/graph_scheduler/scheduler.py:Scheduler._validate_conditions", "src/graph_scheduler/condition.py:ConditionBase.owner", "src/graph_scheduler/condition.py:NWhen", "src/graph_scheduler/condition.py:ConditionSet.add_condition"]}
{"id": "C102", "title": "All and Any combine every condition they are given", "statement": "All(...) and Any(...) make a condition that is satisfied when all, or one, of the conditions named in the call are, whether these are given by position or by keyword.", "quantifier": "every list of positional and keyword arguments, scheduler state and execution id", "why_tests_cant": "All numbers of arguments and all conditions.", "anchors": ["src/graph_scheduler/condition.py:All", "src/graph_scheduler/condition.py:Any", "src/graph_scheduler/condition.py:CompositeCondition"]}
{"id": "C103", "title": "Loosening conditions never makes a node fall behind", "statement": "Take a scheduler and make some of its conditions easier to satisfy: lower the number of calls, passes or updates asked for, replace a condition by Always, leave out a part of All, add a part to Any, lower n in EveryNCalls. Every condition asks for the outside world, for passes or coarser units, or for enough calls (not for few); EveryNCalls is the whole condition of its node, as it is for nodes with one sender by default. Then, if the outside world does not change and the runs are not in absolute-time mode, after any number of passes each node has been executed at least as often as before the change. (A node with two senders and no condition is an exception: it can run less often when one of its senders runs earlier.)", "quantifier": "every graph, all conditions of these kinds, every number of passes, every node, termination conditions that are not satisfied", "why_tests_cant": "Runs of any length: the effect of one loosened condition travels through all later passes.", "anchors": ["src/graph_scheduler/scheduler.py:Scheduler.run", "src/graph_scheduler/condition.py:EveryNCalls", "src/graph_scheduler/condition.py:AfterNCalls", "src/graph_scheduler/condition.py:All", "src/graph_scheduler/condition.py:Any"]}
{"id": "C104", "title": "Only the proportions of durations matter", "statement": "Multiply every duration in the conditions of the nodes and the termination conditions, and default_absolute_time_unit, by the same positive number (or write the durations in other units, whose numbers are multiplied accordingly). Then run raises the same exceptions, yields the same sets and leaves the same counters, and its absolute times are multiplied by this number; nothing else that can be seen changes. The provisos: custom functions give the same results, and a TimeInterval with repeat is not hidden in Not or NWhen (outside absolute-time mode such a TimeInterval supposes that a consideration set execution takes 1 ms).", "quantifier": "every positive factor, every graph and scheduler state, all conditions of any nesting, every run with any behaviour of the consumer, both modes", "why_tests_cant": "The unit of the clock is a greatest common divisor of all durations in use and the time the clock begins at is a maximum of minima; the claim is about all durations and all factors.", "anchors": ["src/graph_scheduler/scheduler.py:Scheduler.run", "src/graph_scheduler/scheduler.py:Scheduler._get_absolute_consideration_set_execution_unit", "src/graph_scheduler/scheduler.py:Scheduler.get_absolute_conditions", "src/graph_scheduler/condition.py:TimeInterval", "src/graph_scheduler/condition.py:TimeTermination", "src/graph_scheduler/time.py:Clock", "src/graph_scheduler/time.py:Time"]}
{"id": "C105", "title": "Conflicting operations are reported as such, whatever the nodes are", "statement": "modify_graph of BeforeNodes, WithNode and AfterNodes raises ConditionError, and nothing else, exactly if the owner or a subject is not in the graph, or the owner is not in place already, ignore_conflicts is False and two operations disagree about an edge. This does not depend on which hashable objects the nodes are.", "quantifier": "every graph (also with shared sets), owner, subjects and options; nodes of every type", "why_tests_cant": "The message names the neighbours of the nodes on each side of each conflict. Tests use nodes that are strings and a few conflicts.", "anchors": ["src/graph_scheduler/condition.py:_GSCWithOperations._process", "src/graph_scheduler/condition.py:_GSCWithOperations._get_edge_conflicts", "src/graph_scheduler/condition.py:_GSCWithOperations._get_conflict_application_string"]}
{"id": "C106", "title": "A forked execution context continues as its base would", "statement": "run(execution_id=new, base_execution_id=b) for a never-used id goes through the same events and yields the same sets as run(execution_id=b) would at this moment, if the outside world answers the same under both ids; and afterwards counts and history of the two are the same.", "quantifier": "every scheduler, history of the base, condition and termination condition, every answer of the outside world", "why_tests_cant": "The fork must agree with the base at each point of each run, for all conditions and after all histories. Tests compare the counts once.", "anchors": ["src/graph_scheduler/scheduler.py:Scheduler.run", "src/graph_scheduler/scheduler.py:Scheduler._init_counts", "src/graph_scheduler/scheduler.py:Scheduler._init_clock", "src/graph_scheduler/condition.py:NWhen"]}
{"id": "C107", "title": "The keyword arguments of a condition may have any name", "statement": "Condition(func, *args, **kwargs) can be created with keyword arguments of any names (other than those of its own parameters), and whenever it is evaluated, func is called with these positional and keyword arguments, with those given at evaluation added, as far as it accepts them.", "quantifier": "every function signature, all positional and keyword arguments given at creation and at evaluation, all names", "why_tests_cant": "Keyword arguments are also stored as attributes of the condition, where they can replace what it uses itself. Tests use a few harmless names.", "anchors": ["src/graph_scheduler/condition.py:ConditionBase.__init__", "src/graph_scheduler/condition.py:Condition.__init__", "src/graph_scheduler/condition.py:Condition.is_satisfied", "src/graph_scheduler/utilities.py:call_with_pruned_args"]}
{"id": "C108", "title": "The names of execution ids do not matter", "statement": "If the execution ids are given other names (as default_execution_id, execution_id and base_execution_id, in get_clock and end_environment_sequence, and to the nodes and functions that are told them), a scheduler does the same under the new names: runs start or raise alike, yield the same sets, and leave the same counts, histories and times. In particular a scheduler with another default_execution_id, run under that id, yields the same sets, if its conditions do not look at the id.", "quantifier": "every one-to-one renaming of ids (None included), every graph, all conditions and time modes, any number of runs begun, continued and abandoned in any interleaving, anything the user does in between, every consumer", "why_tests_cant": "Ids are keys of five dicts and of the memory of NWhen; a single place that uses a fixed id, or the wrong one, shows only in particular combinations of contexts.", "anchors": ["src/graph_scheduler/scheduler.py:Scheduler.run", "src/graph_scheduler/scheduler.py:Scheduler._init_counts", "src/graph_scheduler/scheduler.py:Scheduler.get_clock", "src/graph_scheduler/condition.py:NWhen.satis"]}
{"id": "C109", "title": "The clock object of an execution id", "statement": "scheduler.get_clock(i) returns one and the same clock object for i, whatever else happens, until the context of i is deleted; an object that was handed out for one id is never handed out for another, and time that passes under other ids leaves it as it is. Deleting the context discards the clock: the next one is a new object at time zero, and the old object stands still. Until then, a time object obtained from the clock (as run does once, at its beginning) shows at every moment the current time of the context.", "quantifier": "every history of calls of get_clock, starts of runs, passing of time, copies of contexts and deletions, under all ids, with or without an attribute default_execution_id", "why_tests_cant": "Clocks are mutable objects in a dict, and are created in three places. Whether two ids come to share one, or a run keeps one that is no longer used, depends on the whole history.", "anchors": ["src/graph_scheduler/scheduler.py:Scheduler.get_clock", "src/graph_scheduler/scheduler.py:Scheduler._init_clock", "src/graph_scheduler/scheduler.py:Scheduler._delete_counts", "src/graph_scheduler/scheduler.py:Scheduler.run", "src/graph_scheduler/time.py:Clock"]}
{"id": "C110", "title": "A rejected structural condition blocks the scheduler until it is removed", "statement": "If adding a structural condition raises an exception while it is applied to the graph, the condition stays in the scheduler. Every later read of graph, consideration_queue or consideration_queue_indices and every later addition of conditions then raises the same exception, and no run can be started, until the rejected condition is removed. Nothing that is added meanwhile is lost: once the rejected condition is removed, the graph is the base graph transformed by all conditions that are present, in order, as if the rejected one had never been added, and so it stays under later calls.", "quantifier": "every base graph, every sequence of additions, removals and reads before (that does not end with a removal), every rejected condition and exception, every sequence of additions, reads and removals meanwhile that leaves the conditions applied before in place, and every sequence of calls afterwards", "why_tests_cant": "The stack of graphs is repaired lazily, after exceptions at any point. Whether a later repair starts from the right graph depends on everything that was added, removed and read in between.", "anchors": ["src/graph_scheduler/scheduler.py:Scheduler._handle_modified_structural_conditions", "src/graph_scheduler/scheduler.py:Scheduler.add_condition", "src/graph_scheduler/scheduler.py:Scheduler.add_condition_set", "src/graph_scheduler/scheduler.py:Scheduler.remove_condition", "src/graph_scheduler/scheduler.py:Scheduler.graph"]}
{"id": "C111", "title": "The effect of structural conditions depends on the edges of the graph only", "statement": "Two graphs with the same nodes and the same edges are transformed by the same built-in structural conditions into graphs with the same nodes and the same edges (or rejected with the same exception), and lead to the same consideration queue and the same runs, whatever the order of the nodes in the dict and of the senders in the sets, and in whatever order cycles are found.", "quantifier": "every pair of graphs with the same nodes and edges, every sequence of built-in structural conditions with all options, and every two enumerations of simple cycles", "why_tests_cant": "The loops over set and dict entries modify the graph they read, so that an edge added or removed early can change what is done later. Iteration order of sets of strings differs between processes; a test sees one order.", "anchors": ["src/graph_scheduler/condition.py:BeforeNodes", "src/graph_scheduler/condition.py:WithNode", "src/graph_scheduler/condition.py:AfterNodes", "src/graph_scheduler/condition.py:AddEdgeTo", "src/graph_scheduler/condition.py:RemoveEdgeFrom", "src/graph_scheduler/condition.py:GraphStructureCondition.modify_graph", "src/graph_scheduler/condition.py:_GSCWithOperations", "src/graph_scheduler/utilities.py:get_simple_cycles"]}
{"id": "C112", "title": "The names of the nodes do not matter to structural conditions, calls and the runs after them", "statement": "If all nodes are given other names, one to one and everywhere (graph, conditions, owners, subjects), then every built-in structural condition has the same effect or raises the same exception, every call of the scheduler (adding, removing and reading conditions, the graph, the queue, the indices) returns and raises the same, in any sequence, whether calls raise or not, and the run after them is the same with the new names; provided sets and cycles are listed in the corresponding order.", "quantifier": "every one-to-one renaming, every graph, every built-in structural condition with all options, every state of a scheduler, every sequence of calls, every run", "why_tests_cant": "Nodes may be any hashable objects; a test uses the few names it is written with. That no step compares, sorts or otherwise looks at names must hold for all of them.", "anchors": ["src/graph_scheduler/condition.py:BeforeNodes", "src/graph_scheduler/condition.py:WithNode", "src/graph_scheduler/condition.py:AfterNodes", "src/graph_scheduler/condition.py:AddEdgeTo", "src/graph_scheduler/condition.py:RemoveEdgeFrom", "src/graph_scheduler/condition.py:_GSCWithOperations", "src/graph_scheduler/condition.py:ConditionSet", "src/graph_scheduler/scheduler.py:Scheduler.add_condition", "src/graph_scheduler/scheduler.py:Scheduler.add_condition_set", "src/graph_scheduler/scheduler.py:Scheduler.remove_condition", "src/graph_scheduler/scheduler.py:Scheduler._handle_modified_structural_conditions", "src/graph_scheduler/scheduler.py:Scheduler.run"]}
{"id": "C113", "title": "Any pattern of execution that is possible can be scheduled, and no other", "statement": "Take any acyclic graph and any list of passes such that in each pass every consideration set, in order, is passed over or contributes some of its nodes (or nothing executes and the pass is one empty set). If every node is given the condition Any(AtPass(k1), AtPass(k2), ...) for the passes in which it is to execute, and the run is to end after as many passes as there are, then the run begins, raises nothing, returns, and yields pass by pass exactly those sets, whatever the nodes do meanwhile and whatever runs were completed before. Conversely, whatever the conditions, every run without absolute time that returns has executed such a list of passes.", "quantifier": "every acyclic graph, every pattern of any length, every consumer, every history of complete runs; conversely every scheduler, conditions of any kind, every run", "why_tests_cant": "The documentation says that conditions can be combined to generate any pattern that is logically possible; a test tries a few patterns on a few graphs.", "anchors": ["src/graph_scheduler/scheduler.py:Scheduler.run", "src/graph_scheduler/condition.py:AtPass", "src/graph_scheduler/condition.py:Any", "src/graph_scheduler/condition.py:AfterNPasses", "src/graph_scheduler/scheduler.py:Scheduler.add_condition"]}
{"id": "C114", "title": "Nodes of different consideration sets never execute at the same absolute time, except in exact-time mode", "statement": "In standard mode with a positive default unit and no repeat interval of 0, two nodes that execute at the same absolute time are in the same consideration set. A node with TimeInterval(start=b) in a scheduler with several consideration sets executes whenever its consideration set is considered at b or later, and never before, so of two such nodes in different consideration sets at most one starts at b. In EXACT_TIME mode two such nodes execute in exactly the same sets, and if the clock starts at a multiple of the interval, not after b, and the run lasts until b, both execute at b.", "quantifier": "every graph, all conditions of the other nodes, every run of any length, every starting time", "why_tests_cant": "The documentation claims this of all graphs and of runs of any length (scheduler.py:195-233); a test compares the timestamps of one run.", "anchors": ["src/graph_scheduler/scheduler.py:Scheduler.run", "src/graph_scheduler/scheduler.py:Scheduler._get_absolute_consideration_set_execution_unit", "src/graph_scheduler/condition.py:TimeInterval", "src/graph_scheduler/scheduler.py:SchedulingMode"]}
{"id": "C115", "title": "Absolute time passes", "statement": "In absolute-time mode each set is yielded at a later absolute time than all sets before it, and every time is passed after a number of sets that is fixed when the run starts, so that a run with TimeTermination(t) cannot go on for ever.", "quantifier": "every graph, conditions, mode, default unit, run and time t", "why_tests_cant": "A run that does not end cannot be observed by a test, and all combinations of times have to be considered.", "anchors": ["src/graph_scheduler/scheduler.py:Scheduler._get_absolute_consideration_set_execution_unit", "src/graph_scheduler/scheduler.py:Scheduler.run", "src/graph_scheduler/condition.py:TimeTermination", "src/graph_scheduler/condition.py:TimeInterval"]}
{"id": "C116", "title": "A scheduler with structural conditions behaves as one created for the graph they make", "statement": "A scheduler to which structural conditions were added before its first run behaves as if it had been created for the graph it then shows: a scheduler created for that graph (with its nodes and senders in any order) that has the same basic conditions and no structural ones has the same nodes, the same senders of every node and the same consideration sets. Their first runs with the same termination conditions and the same consumer yield sets with the same members, one by one, and neither goes on when the other has returned, provided that the order inside consideration sets does not matter and the conditions are deterministic.", "quantifier": "every graph, every sequence of additions and removals of structural and basic conditions, both modes, cyclic or acyclic results, runs of any length", "why_tests_cant": "The documentation promises it of all graph structure conditions (condition.py:122-141); tests compare the consideration queues of single graphs.", "anchors": ["src/graph_scheduler/scheduler.py:Scheduler.add_condition", "src/graph_scheduler/scheduler.py:Scheduler._handle_modified_structural_conditions", "src/graph_scheduler/scheduler.py:Scheduler.graph", "src/graph_scheduler/scheduler.py:Scheduler.run", "src/graph_scheduler/condition.py:GraphStructureCondition", "src/graph_scheduler/condition.py:BeforeNodes"]}
{"id": "C117", "title": "Rounding of absolute times never decides when a node executes", "statement": "The time at which a run starts is shown by the clock as it is, and TimeInterval(repeat=r) is satisfied exactly at the multiples of r after its start: the rounding to eight decimal places, of the starting time and of the remainder, makes no difference.", "quantifier": "every graph, conditions, mode, execution id, starting time, and every consideration of every run", "why_tests_cant": "Whether a small number is rounded away depends on the units of all conditions together, on the number of consideration sets and on how long the run has lasted; a test tries one combination.", "anchors": ["src/graph_scheduler/scheduler.py:Scheduler.run", "src/graph_scheduler/scheduler.py:_quantity_as_integer", "src/graph_scheduler/condition.py:TimeInterval"]}
{"id": "C118", "title": "A node can be made to go first", "statement": "If a node d has Always() and every other node EveryNCalls(d, 1), a run with the default termination conditions returns and yields every consideration set completely, in the order of the queue but beginning with the set of d: the sets before it come last. In a run of N passes only the first pass is incomplete: it begins with the set of d.", "quantifier": "every acyclic graph, every node d of it, any number of passes, any behaviour of the nodes in the meantime, any completed earlier runs", "why_tests_cant": "The documentation shows this for one graph of four nodes (condition.py:100-119); that it holds wherever d is, and for nodes in the same consideration set as d, needs an argument about all graphs.", "anchors": ["src/graph_scheduler/condition.py:EveryNCalls", "src/graph_scheduler/condition.py:Always", "src/graph_scheduler/scheduler.py:Scheduler.run"]}
{"id": "C119", "title": "The complete schedule of nodes with rates, also within a consideration set and in exact-time mode", "statement": "Let every node have the condition Always, EveryNCalls(d, k), an All of these, or no condition, waiting for nodes in earlier consideration sets or in its own one, there never in a circle; let the rate of a node be the largest product k * rate(d) over the k calls of d it waits for (1 if it waits for nothing). Then, in whatever order the nodes of a set are considered, the p-th pass of a run that is not in absolute-time mode yields of every consideration set the nodes whose rate divides p: a node that waits for another one of its set is executed with it. A run with the default termination conditions raises nothing, returns, and yields these sets up to the one with which every node has executed. In exact-time mode, where all nodes form one consideration set, a run of a scheduler without conditions therefore yields just one set, with all nodes of the graph.", "quantifier": "every graph, both scheduling modes, every assignment of such conditions, every order within the consideration sets, any number of passes, any completed earlier runs, any behaviour of the outside world", "why_tests_cant": "The documentation says it for one graph of three nodes (scheduler.py:126-141). That the loop over a set finds all nodes that the others of the set allow, in every order and in every pass, is an invariant over counts of calls.", "anchors": ["src/graph_scheduler/scheduler.py:Scheduler.run", "src/graph_scheduler/condition.py:EveryNCalls", "src/graph_scheduler/condition.py:All", "src/graph_scheduler/scheduler.py:SchedulingMode"]}
{"id": "C120", "title": "The phasing examples of the documentation hold for all numbers", "statement": "(1) Let b follow a; a has Any(AtPass(0), EveryNCalls(b, n)), b has Any(EveryNCalls(a, 1), EveryNCalls(b, 1)), n >= 1. A run that ends with AfterNCalls(b, m) returns after m passes; b is executed in each of them, and a before it in the passes 0, n, 2n, ... (2) Let c follow a and b; a has EveryNPasses(1), b has EveryNCalls(a, k), c has Any(AfterNCalls(a, i), AfterNCalls(b, j)), all numbers at least 1. A run that ends with AfterNCalls(c, m) returns after min(i, j*k) - 1 + m passes; in each of them a is executed, with every k-th execution of a also b, in the same set, and then c, from the pass on in which a has been executed i times or b j times.", "quantifier": "all numbers, every order within the consideration set, any completed earlier runs, any behaviour of the outside world", "why_tests_cant": "The documentation gives one instance of each (scheduler.py:256-300); that the pattern goes on in the same way for ever, and for other numbers, is an induction over passes.", "anchors": ["src/graph_scheduler/scheduler.py:Scheduler.run", "src/graph_scheduler/condition.py:Any", "src/graph_scheduler/condition.py:AtPass", "src/graph_scheduler/condition.py:EveryNCalls", "src/graph_scheduler/condition.py:EveryNPasses", "src/graph_scheduler/condition.py:AfterNCalls"]}
{"id": "C121", "title": "A caller that modifies the yielded sets changes the history, not the schedule", "statement": "The sets that run() yields are the objects kept in execution_list. If no condition is or contains JustRan and no user function reads execution_list or execution_timestamps, then a run whose caller modifies yielded sets, or any other entries of these two attributes, before the run or between two steps, in any way, yields the same sets at the same times, and leaves the same counters and clocks, as a run whose caller does not; and whatever a caller does to them, every run that is possible without it is possible with it. With JustRan this fails: a node with JustRan(a) is not executed if the caller empties the set {a} it was given.", "quantifier": "all graphs, conditions without JustRan, all runs in both scheduling modes, all points at which the caller may modify, all modifications that keep the lists", "why_tests_cant": "That nothing read later depends on the shared objects has to be shown for each condition, each point of suspension and each modification.", "anchors": ["src/graph_scheduler/scheduler.py:Scheduler.run", "src/graph_scheduler/condition.py:JustRan"]}
{"id": "C122", "title": "Exact-time mode is standard mode without the edges", "statement": "Let every node have a condition of its own, and let no user function look at the scheduler's mode or graph. A run in exact-time mode then goes like a run in standard mode of a scheduler with the same conditions for the same nodes without edges: the same sets are chosen and yielded, node by node in the same order, all counters, clocks and records are the same, and it ends or raises in the same way; and conversely. This holds for absolute conditions too, unless inclusive starts, ends or termination times are not multiples of the greatest common divisor of the repeat intervals: then exact-time mode has a smaller interval, and a node with TimeInterval(repeat=2, start=1) that is executed there is never executed in standard mode.", "quantifier": "all acyclic graphs with at least one node, conditions, termination conditions, states of the scheduler, consumers and numbers of steps", "why_tests_cant": "It compares two schedulers for every graph, every combination of conditions and every state of the run.", "anchors": ["src/graph_scheduler/scheduler.py:Scheduler.run", "src/graph_scheduler/scheduler.py:Scheduler.consideration_queue", "src/graph_scheduler/scheduler.py:Scheduler._in_exact_time_mode", "src/graph_scheduler/scheduler.py:Scheduler._get_absolute_consideration_set_execution_unit", "src/graph_scheduler/scheduler.py:SchedulingMode"]}
{"id": "C123", "title": "The text of a time identifies the moment", "statement": "repr of scheduler.get_clock(id).time shows the environment sequence, environment state update, pass and consideration set execution, under their aliases if there are any, and the absolute time if the scheduler uses it. Two times have the same text exactly if they agree in all of these; so, while aliases are not changed, no two moments in the life of a clock and no two sets yielded by a run have the same text. The text of simple_time does not show the pass: two sets yielded in different passes of a run can have the same text there.", "quantifier": "all times, all aliases, all texts of quantities without a comma, all histories of a clock, all runs and consumers that leave the clock alone", "why_tests_cant": "Numbers of any size, any alias and any history of increments have to be told apart by their text.", "anchors": ["src/graph_scheduler/time.py:Time.__repr__", "src/graph_scheduler/time.py:Time._time_repr", "src/graph_scheduler/time.py:SimpleTime.__repr__", "src/graph_scheduler/time.py:Clock"]}
{"id": "C124", "title": "The current time is live, recorded times are snapshots", "statement": "clock.time is the same object for the whole life of a clock and always shows the current time, and clock.simple_time always shows the same; this also holds for clocks that were made as copies of others (base_execution_id). The times in execution_timestamps, and an object that was clock.previous_time, never change after they were made, whatever happens to any clock; copies of clocks do not influence each other. So clocks and recorded times behave as if they were values.", "quantifier": "all histories of creating and copying clocks, increments of any unit, starts of runs and recordings of times, in any order", "why_tests_cant": "Whether two attributes share an object has to be tracked through every history of copies and changes in place.", "anchors": ["src/graph_scheduler/time.py:Clock", "src/graph_scheduler/time.py:SimpleTime", "src/graph_scheduler/time.py:TimeHistoryTree.increment_time", "src/graph_scheduler/scheduler.py:Scheduler.run", "src/graph_scheduler/scheduler.py:Scheduler._init_clock"]}
{"id": "C125", "title": "Turning warnings into errors", "statement": "If a warning filter turns warnings into exceptions, a method of ConditionSet or Scheduler, or a property of Scheduler, that would have given no warning does and returns the same as without the filter, and otherwise raises the first warning it would have given. A ConditionSet then contains what it contained before; after add_condition_set also the conditions given before the one that raised. If the graph was read (or a condition added) since the last removal and adding a new structural condition raises, then after its removal graph, consideration_queue and consideration_queue_indices are those before the attempt. Without that proviso the scheduler can lose its graph.", "quantifier": "all sets, schedulers, conditions and calls, and all structural conditions with any warnings of their own", "why_tests_cant": "An exception can be raised at any call of warnings.warn in the middle of a method; tests run with one filter.", "anchors": ["src/graph_scheduler/condition.py:ConditionSet.add_condition", "src/graph_scheduler/condition.py:ConditionSet.add_condition_set", "src/graph_scheduler/condition.py:ConditionSet.remove_condition", "src/graph_scheduler/condition.py:_DependencyValidation._validate_owner", "src/graph_scheduler/scheduler.py:Scheduler._handle_modified_structural_conditions", "src/graph_scheduler/scheduler.py:Scheduler._push_graph"]}
{"id": "C126", "title": "Nodes with the same condition execute together", "statement": "If two nodes of one consideration set have the same condition (each its own object, equal apart from that), or neither has a condition and they have the same senders, and the condition (or default) does not count calls of nodes of that same set, then every set a run yields contains both of them or neither, and they are called equally often. With a condition that counts calls in the same set this fails: with BeforeNCalls(b, 1) for a and c, considered in the order a, b, c, only a executes.", "quantifier": "all schedulers, graphs and described conditions (including NWhen, combinations and absolute-time intervals), all histories of completed runs in which the two were called equally often, all behaviours of the nodes, all points of a run", "why_tests_cant": "It ranges over all conditions, over all states of the other nodes and over unboundedly long runs; a test compares two nodes in one graph.", "anchors": ["src/graph_scheduler/scheduler.py:Scheduler.run", "src/graph_scheduler/condition.py:Condition.is_satisfied", "src/graph_scheduler/condition.py:EveryNCalls", "src/graph_scheduler/condition.py:NWhen", "src/graph_scheduler/condition.py:BeforeNCalls"]}
{"id": "C127", "title": "Starting a run when warnings raise", "statement": "If a warning filter turns warnings into exceptions, a run for which no warning is due starts as without the filter. Otherwise beginning to iterate over it raises the warning (structural conditions in exact-time mode, or a node without condition that is its own sender), and counts, clocks, recorded sets and times, the graph and all conditions that had been given are unchanged. After the warning for exact-time mode every later run without the filter starts as if the attempt had not been made; after the other one a second attempt under the filter raises the same warning for the same node. Threshold(...) raises exactly where it would have warned.", "quantifier": "all schedulers, graphs, conditions, run arguments and execution ids", "why_tests_cant": "The exception is raised in the middle of the validation, after some implicit conditions have been added; tests run with one filter and one graph.", "anchors": ["src/graph_scheduler/scheduler.py:Scheduler.run", "src/graph_scheduler/scheduler.py:Scheduler._validate_run_state", "src/graph_scheduler/scheduler.py:Scheduler._validate_conditions", "src/graph_scheduler/condition.py:_DependencyValidation._validate_owner", "src/graph_scheduler/condition.py:Threshold.__init__"]}
{"id": "C128", "title": "Conditions on the numbers of passes and runs select exactly those passes", "statement": "If the condition of a node is made with All, Any and Not of Always, Never, BeforePass, AtPass, AfterPass, AfterNPasses, EveryNPasses (in the environment state update) and Before-, At-, After-, AfterNEnvironmentStateUpdate(s) (in the environment sequence), then in every pass the node executes at most once, and only if what the condition says is true of the number of the pass and the number of the run. In a run that ends after N passes it executes in exactly those passes. With NWhen of such a condition and m it executes in the first m of them, counted over all runs.", "quantifier": "all schedulers with described conditions, all such conditions, all numbers, all termination conditions (first part), all completed runs before, all behaviours of the other nodes", "why_tests_cant": "The numbers, the combinations of conditions and the numbers of passes are unbounded.", "anchors": ["src/graph_scheduler/scheduler.py:Scheduler.run", "src/graph_scheduler/condition.py:BeforePass", "src/graph_scheduler/condition.py:AtPass", "src/graph_scheduler/condition.py:AfterPass", "src/graph_scheduler/condition.py:AfterNPasses", "src/graph_scheduler/condition.py:EveryNPasses", "src/graph_scheduler/condition.py:AtEnvironmentStateUpdate", "src/graph_scheduler/condition.py:All", "src/graph_scheduler/condition.py:Any", "src/graph_scheduler/condition.py:Not"]}
{"id": "C129", "title": "A graph whose origins execute in certain passes executes as a whole in exactly these passes", "statement": "Let every node of a non-empty acyclic graph either have a condition on the numbers of passes and runs (made with All, Any and Not of AtPass, AfterNPasses, EveryNPasses, ...), all of which name the same passes, or have no condition and a sender. In a run that ends after N passes, each named pass executes the whole graph, set by set in the order of the graph, and every other pass executes nothing. (In absolute time as well.) Without any conditions every pass executes the whole graph.", "quantifier": "all acyclic graphs, all such conditions, all numbers of passes, all completed runs before", "why_tests_cant": "Graphs, numbers of passes and conditions are unbounded; the default condition of a node depends on the whole history of its senders.", "anchors": ["src/graph_scheduler/scheduler.py:Scheduler.run", "src/graph_scheduler/scheduler.py:_build_consideration_queue", "src/graph_scheduler/condition.py:EveryNPasses", "src/graph_scheduler/condition.py:EveryNCalls", "src/graph_scheduler/condition.py:ConditionSet"]}
{"id": "C130", "title": "Along a chain of nodes that wait for calls of each other the numbers multiply", "statement": "A node waits for k calls of another one if its condition is EveryNCalls of it with k, or All with such a part, or Any with only such parts, or NWhen of such a condition; or, with k = 1, if it has no condition and the other node is a sender of it. If there is a chain of nodes from n to e, each of which waits for calls of the next, then at every moment of a run e has executed in this run at least as often as n, times the product of the numbers. In particular nodes downstream of a node that does not execute do not execute.", "quantifier": "all schedulers with described conditions, all such chains of any length and all numbers, all moments of all runs, all behaviours of the other nodes", "why_tests_cant": "Chains, numbers and runs are unbounded.", "anchors": ["src/graph_scheduler/scheduler.py:Scheduler.run", "src/graph_scheduler/condition.py:EveryNCalls", "src/graph_scheduler/condition.py:NWhen", "src/graph_scheduler/condition.py:All", "src/graph_scheduler/condition.py:Any"]}
{"id": "C131", "title": "A schedule can be computed pass by pass", "statement": "Consider a run that ends after N passes. Let the condition of a node (or the one inside its NWhen) be made with All, Any and Not of the conditions on the numbers of passes and runs and of BeforeNCalls, AtNCalls, AfterCall, AfterNCalls, AllHaveRun and EveryNCalls of nodes in other consideration sets, earlier or later ones, or let it have no condition. Then it executes in a pass if and only if its condition says so of the numbers of executions in the passes before and, for nodes considered before it, in this pass (for EveryNCalls and for nodes without condition: since the node itself last executed; for NWhen: and it has executed less than the given number of times). If all nodes are such, this determines which nodes execute in which pass. Whatever ends the run, such a node executes only in passes of which its condition says so.", "quantifier": "all schedulers whose conditions refer to nodes of other consideration sets, also in a circle; all numbers of passes, all completed runs before, standard and absolute time", "why_tests_cant": "Graphs, conditions and numbers of passes are unbounded; the claim relates every pass to the whole history before it.", "anchors": ["src/graph_scheduler/scheduler.py:Scheduler.run", "src/graph_scheduler/condition.py:BeforeNCalls", "src/graph_scheduler/condition.py:AtNCalls", "src/graph_scheduler/condition.py:AfterCall", "src/graph_scheduler/condition.py:AfterNCalls", "src/graph_scheduler/condition.py:AllHaveRun", "src/graph_scheduler/condition.py:EveryNCalls", "src/graph_scheduler/condition.py:NWhen"]}
{"id": "C132", "title": "A standstill is final", "statement": "Let the conditions of all nodes change only when nodes execute: Always, Never, BeforeNCalls, AtNCalls, AfterCall, AfterNCalls, AfterNCallsCombined, EveryNCalls, AllHaveRun, the conditions on the numbers of runs and environment sequences, All, Any and Not of these, NWhen of these, or no condition. If the run ends by numbers of calls or of passes, then after a pass in which nothing executes (an empty set is yielded) nothing executes in any later pass of the run. If its termination conditions do not look at the number of passes either, as the default ones, a run with such a pass never returns.", "quantifier": "all graphs, all such conditions of any nesting, all such termination conditions, all numbers of passes, all completed runs before, standard and absolute time", "why_tests_cant": "The claim is about all later passes of runs that may never end; graphs and conditions are unbounded.", "anchors": ["src/graph_scheduler/scheduler.py:Scheduler.run", "src/graph_scheduler/condition.py:ConditionSet", "src/graph_scheduler/condition.py:AfterNCalls", "src/graph_scheduler/condition.py:EveryNCalls", "src/graph_scheduler/condition.py:NWhen"]}
{"id": "C133", "title": "It does not matter where runs end to conditions on a longer time", "statement": "Let no condition of a node look at the current run: conditions on calls counted in the current PASS or in the ENVIRONMENT_SEQUENCE or LIFE, conditions on the numbers of passes or consideration set executions in the ENVIRONMENT_SEQUENCE or LIFE, JustRan, Always, Never, All, Any and Not of these, NWhen of these; nodes without condition have no senders. Then a run of N passes followed by a run of M passes (with other termination conditions objects, another consumer and a changed outside world) yields together, pass by pass, exactly what one run of N + M passes yields in their place. More generally, however a number of passes is divided into runs, together they yield the same.", "quantifier": "all graphs, all such conditions of any nesting, all N and M, all completed runs before, standard and absolute time", "why_tests_cant": "The claim compares executions of unbounded length of the same scheduler; no finite set of numbers of passes settles it.", "anchors": ["src/graph_scheduler/scheduler.py:Scheduler.run", "src/graph_scheduler/scheduler.py:Scheduler._reset_counts_total", "src/graph_scheduler/condition.py:AfterNCalls", "src/graph_scheduler/condition.py:EveryNPasses", "src/graph_scheduler/condition.py:JustRan", "src/graph_scheduler/condition.py:NWhen"]}
{"id": "C134", "title": "Conditions that look at the current pass only make all passes alike", "statement": "Let every node have Always, Never, a condition on calls counted in the current PASS (BeforeNCalls, AtNCalls, AfterCall, AfterNCalls, AfterNCallsCombined, AllHaveRun with time_scale=PASS), or All, Any and Not of these, or neither a condition nor senders. Then all passes of all runs that end after given numbers of passes yield the same sets in the same order, whatever ran before and whatever happens between the runs. With the default termination conditions such a run is over after one pass or never.", "quantifier": "all graphs, all such conditions of any nesting, all numbers of passes, all completed runs before, standard and absolute time", "why_tests_cant": "The claim is about every pass of every run; no number of passes tried settles it.", "anchors": ["src/graph_scheduler/scheduler.py:Scheduler.run", "src/graph_scheduler/scheduler.py:Scheduler._reset_counts_total", "src/graph_scheduler/condition.py:AfterNCalls", "src/graph_scheduler/condition.py:AllHaveRun", "src/graph_scheduler/condition.py:AfterNCallsCombined"]}
