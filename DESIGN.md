# Formal model of kmantel/graph-scheduler in Lean 4

The properties are listed in `properties.jsonl` (C01...). This file says what is
modelled, how each property is proved, what is not modelled, where the code disagrees
with its documentation, and what is trusted. `MANIFEST.json` names the theorems.

## How to read the development

* `Verif/*.lean` without `Spec` and `Props`: the model (listed below) and lemmas.
* `Verif/Spec/*.lean`: the vocabulary theorem statements are written in. It is small and
  does not use the model's helpers: chains of edges, histories of runs, logs of clock
  increments, sums over time, sets described by membership.
* `Verif/Props/*.lean`: the property theorems `Cnn_...`, each with an `example` showing
  that a concrete, non-trivial case meets its hypotheses (usually a scheduler that is
  executed by the kernel with `decide +kernel`; those examples are not part of any proof of
  a universal claim). `_partial` in a name means that the listed claim is false of the code
  or only proved in part; the theorem that refutes the full claim stands beside it.

### The model

| module | models |
|---|---|
| `Basic` | association-list dicts, `Err` (exceptions as values) |
| `Time` | `time.py`: TimeScale, Time, TimeHistoryTree, Clock |
| `Graph` | base graph of `Scheduler.__init__`, the `toposort` package, `_build_consideration_queue`, indices |
| `Condition` | all basic conditions of `condition.py` as data with an evaluator; owners and `NWhen` counters live in a store of condition objects |
| `Convenience` | start-of-unit functions and the `Threshold` constructor |
| `Rounded` | the starting time of a run and `TimeInterval` with the rounding to eight decimal places |
| `Units` | parsing of durations, rounding, the constructor checks of `TimeInterval`, the common interval of durations in different units |
| `Scheduler` | scheduler state, and `run()` as a generator: a machine with a program counter |
| `TermConds` | default, constructor, setter and `run()` termination conditions |
| `CondSet` | `ConditionSet`: add, bulk add, assignment, remove, views |
| `Structural` | graph stack: push, pop, `_handle_modified_structural_conditions`, graph reads, mode |
| `GraphEdges` | `add_graph_edge`, `remove_graph_edge` |
| `GSC` | `GraphStructureCondition` and subclasses on a heap of mutable sets, pruning of cycles, reconnection |
| `CondAttrs` | `Condition` objects with their attributes: creation, `setattr`, evaluation |
| `Strict` | the functions of `Warn` under a filter that turns warnings into exceptions |
| `StrictRun` | the start of a run and `Threshold.__init__` under such a filter |
| `TimeObjs` | clocks and times as objects: `time`, `previous_time`, `simple_time`, recorded times, copies |
| `TimeText` | `repr` of `Time` and `SimpleTime` |
| `ConflictText` | the texts about conflicting operations, as far as building them can fail |
| `Cycles` | one enumeration of simple cycles, to show that the assumptions on it can be met |
| `GSCArgs` | the constructors of these classes: operations by name, dicts of operations, checks |
| `Custom` | `CustomGraphStructureCondition` |
| `Warn` | the warnings given by conditions, the condition set, the graph stack and `run()` |
| `Whole` | the graph stack together with the state of runs |
| `Util` | conversions, receivers, ancestors and descendants, `clone_graph` |
| `Args` | `prune_unused_args`, `call_with_pruned_args`, calling of user functions |
| `Cache` | `cached_hashable_graph_function` |
| `Alias` | aliases of time scales, attributes of `Time` and `SimpleTime`, `Time.__init__`, `Time._time_repr` |
| `ClockObjs` | the clocks of a scheduler as objects: `get_clock`, `_init_clock`, deletion |
| `Delete` | `Scheduler._delete_counts` |

## Properties

* **C01** Consideration sets partition the graph's nodes (proved; `Props/Graph`). `toposort` is modelled as its source (repeatedly remove nodes without remaining dependencies); induction over the rounds relates layer i to longest chains of length i.
* **C02** Senders are considered strictly before receivers (proved; `Props/Graph`). `toposort` is modelled as its source (repeatedly remove nodes without remaining dependencies); induction over the rounds relates layer i to longest chains of length i.
* **C03** Each node is placed at the earliest possible position (proved; `Props/Graph`). `toposort` is modelled as its source (repeatedly remove nodes without remaining dependencies); induction over the rounds relates layer i to longest chains of length i.
* **C04** Cyclic graphs are rejected exactly when they are cyclic (proved; `Props/Default`). A round with nothing to remove and nodes left iff there is a cycle: infinite descent one way, cycles survive removal the other way. Lifted to every life of a scheduler.
* **C05** The consideration queue depends only on the graph, not on how it is written (proved; `Props/Graph`). Layers are characterised by chains, which depend on the graph only.
* **C06** Every yielded set comes from one consideration set, in queue order (proved; `Props/Run`). Invariant of the run machine: every yield comes from one layer, indices increase within a pass.
* **C07** A node executes only when its condition is satisfied (proved; `Props/Run`). Every `add` event of a history carries the state in which the condition evaluated to true.
* **C08** No node whose condition is satisfied is left out (proved; `Props/Run, RunEnds`). The choice loop is a fixpoint iteration; at its end every remaining node was rejected in the final view.
* **C09** Default scheduling runs the consideration queue once (proved; `Props/Default`). Induction over layers with C12: each default condition becomes satisfied exactly in its layer. For every earlier life of the scheduler.
* **C10** A node without a condition waits for all its structural parents (proved; `Props/RunCounts`). The condition `_validate_conditions` creates, and its evaluation through C12.
* **C11** Call counters equal the number of executions in the current unit of time (proved; `Props/Life, RunCounts`). Counters are functions of the history of selections; induction over steps.
* **C12** Useable counts equal executions since the owner last executed (proved; `Props/RunCounts, SameSetRates`). Counters are functions of the history of selections; induction over steps.
* **C13** EveryNCalls bounds the relative execution rate (proved; `Props/RunCounts`). Corollary of C07 and C12, by induction over the history.
* **C14** Termination conditions are honoured at every step (proved; `Props/Run`). The machine evaluates termination before each set; invariant over program counters.
* **C15** With the default termination condition every node has executed when run() returns (proved; `Props/RunCounts`). C14 and C11 for AllHaveRun().
* **C16** Empty sets are yielded only for passes in which nothing executes (proved; `Props/RunCounts`). Invariant on the `changed` flag within a pass.
* **C17** execution_list is the history of yielded sets (proved; `Props/Life, RunCounts`). execution_list is the list of yields of the history under the id.
* **C18** next() on a run always comes back (proved; `Props/RunEnds`). A cost that decreases in every step that does not suspend; a loop for the empty graph.
* **C19** A completed run advances the clock by one ENVIRONMENT_STATE_UPDATE (proved; `Props/RunClock`). Invariant relating the clock to the position within the pass.
* **C20** Time is strictly increasing and consistently nested (proved; `Props/Time`). A flat log of increments is the specification; history tree and time refine it.
* **C21** History queries count what happened (proved; `Props/Time`). A flat log of increments is the specification; history tree and time refine it.
* **C22** Time-based conditions select exactly the documented instants (partial; `Props/CondTime`). C21 specialised to each condition; lifted to runs and lives.
* **C23** Composite conditions are the logical connectives (proved; `Props/Conditions`). Evaluation of composite conditions, by induction over the tree.
* **C24** NWhen is satisfied at most n times per execution id (proved; `Props/Conditions`). Evaluation sequences of one object; lifted to lives.
* **C25** JustRan looks at the previous set (proved; `Props/Conditions`). C17.
* **C26** Call-count conditions are mutually consistent (proved; `Props/Composite, Conditions`). Evaluation lemmas and monotonicity of counters between resets.
* **C27** Execution contexts do not disturb each other (proved; `Props/Life`). Two states that agree under an id behave alike under it (`Agree`); steps under other ids keep the agreement (`Isolate`).
* **C28** A new execution context starts empty (partial; `Props/Life`). Negation by witnesses; for `base_execution_id=NotImplemented` agreement with a new scheduler.
* **C29** base_execution_id forks an execution context (proved; `Props/Life`). What `_init_counts` copies, and C27 afterwards.
* **C30** An abandoned run does not corrupt later runs (proved; `Props/Life`). The first part of `run` resets what an abandoned run left; then agreement of states.
* **C31** The schedule does not depend on iteration order inside a consideration set (partial; `Props/Order`). Simulation: one choice of a set counts as one step; for conditions that only rise while a set is chosen, the chosen set is the least fixpoint and does not depend on the order.
* **C32** Structural conditions act as an ordered composition on the base graph (partial; `Props/Structural`). The stack is the list of prefixes of a fold over the conditions.
* **C33** Removing a structural condition undoes it (proved; `Props/Structural`). The stack is the list of prefixes of a fold over the conditions.
* **C34** A rejected structural condition leaves the scheduler usable (partial; `Props/Structural`). The same with exceptions; negation for the two ways the stack goes wrong.
* **C35** AddEdgeTo and RemoveEdgeFrom change exactly one edge (proved; `Props/GraphEdges`). C32 for the two conditions `add_graph_edge`/`remove_graph_edge` make.
* **C36** BeforeNodes puts its owner before every subject (partial; `Props/GSC`). Heap model of `_process`; the required edges survive the operations, pruning and reconnection.
* **C37** AfterNodes puts its owner after every subject (proved; `Props/GSC`). Heap model of `_process`; the required edges survive the operations, pruning and reconnection.
* **C38** WithNode puts its owner together with its subject (proved; `Props/Edits, GSC`). Heap model of `_process`; the required edges survive the operations, pruning and reconnection.
* **C39** Applying a structural condition neither loses nodes nor modifies its argument (proved; `Props/GSC`). Frame lemmas over the heap.
* **C40** Operations produce the documented neighbours or a conflict error (partial; `Props/GSC`). Membership specification of the six operations; conflicts detected exactly when two operations disagree.
* **C41** Reconnection preserves paths and never creates a cycle (proved; `Props/GSC`). Reachability before and after reconnection.
* **C42** Cycle pruning terminates and only removes permissible edges (partial; `Props/GSC`). Number of edges as a measure; each removed edge is permissible.
* **C43** ConditionSet keeps one basic condition per node and all structural ones in order (proved; `Props/CondSet`). State machine against an abstract log of additions.
* **C44** remove_condition removes exactly the named condition and returns it (partial; `Props/CondSet`). State machine against an abstract log of additions.
* **C45** Termination conditions are merged over the defaults (proved; `Props/TermConds`). Lookup in merged dicts; parsing loops over a dict that changes while it is iterated over.
* **C46** Graph conversions and receiver maps are faithful (proved; `Props/Util`). Relational specification of edges; reachability by graph search.
* **C47** Ancestors and descendants are reachability (proved; `Props/Util`). Relational specification of edges; reachability by graph search.
* **C48** TimeInterval(repeat=r) executes its node exactly every r (partial; `Props/AbsRepeat`). Times of a run in absolute mode lie on a grid of the computed interval; arithmetic on rationals shows that a node is due exactly at its times.
* **C49** Absolute timestamps advance uniformly (proved; `Props/Absolute`). The clock's absolute field against the number of sets.
* **C50** Exact-time mode reaches every specified time (proved; `Props/AbsExact`). The exact-time queue of fixed points and intervals.
* **C51** TimeTermination(t) lets the run proceed until time t (partial; `Props/AbsTerm`). Invariant on the clock against t.
* **C52** Functions receive only arguments they accept (proved; `Props/Args`). List lemmas about the pruned arguments, against a specification of which calls Python accepts.
* **C53** Caching of graph functions is transparent (proved; `Props/Cache`). Cache as a state machine keyed by hashes.
* **C54** Default conditions follow the current graph (partial; `Props/Whole`). Conditions after the start of a run; negation by witness.
* **C55** A condition governs only the node it was added to (partial; `Props/Share`). Evaluation depends only on the objects of a condition (`Share`).
* **C56** consideration_queue_indices names each node's position (proved; `Props/Graph, Indices`). Against C01-C03; with structural conditions and in exact-time mode by C32.
* **C57** A pass considers every consideration set in order (proved; `Props/RunOrder`). Invariant on positions within passes.
* **C58** Time scales of termination conditions may be given by name (partial; `Props/TermConds`). Lookup in merged dicts; parsing loops over a dict that changes while it is iterated over.
* **C59** Surplus arguments do not break a condition's function (partial; `Props/Args`). An exact criterion for every signature, against a specification of which calls Python accepts; witnesses for each way to violate it.
* **C60** TimeInterval(repeat, start, end) executes its node at exactly the times it describes (proved; `Props/AbsInterval`). Times of a run in absolute mode lie on a grid of the computed interval; arithmetic on rationals shows that a node is due exactly at its times.
* **C61** EveryNCalls(d, n) executes its node exactly at every n-th execution of d (proved; `Props/EveryN`). Invariant on the number of calls of d since the last one of b, by position within the pass.
* **C62** Nodes governed by EveryNCalls execute in every r-th pass, for a rate r that can be computed (proved; `Props/EveryN`). Invariant: counts are passes divided by rates; arithmetic on floors shows that a condition is satisfied iff the rate divides the number of the pass; a bound on the number of sets gives termination.
* **C63** WhenFinished conditions follow what the nodes say (proved; `Props/Decided`). Induction over the list of nodes; in runs by C66.
* **C64** Threshold compares the right number in the right way (proved; `Props/Threshold`). Values as nested lists and dicts; the index loop against an inductive relation of paths; in runs by C66.
* **C65** Conditions for the start of a unit of time select exactly that start (proved; `Props/Decided`). From C22 (elapsed units) and C66.
* **C66** A condition that does not concern nodes considered together is decided once (proved; `Props/Decided`). Invariant: since the beginning of the choice only counts of selected nodes have changed.
* **C67** A duration means what was written (partial; `Props/Units`). Model of the parsing helpers over rationals, with pint's parser and unit table as parameters; case analysis on the first unit that gives a whole number; error bound of round-half-even.
* **C68** TimeInterval rejects exactly the intervals that end before they start (partial; `Props/Units`). Case analysis on the kinds of the arguments; a witness for texts.
* **C69** The common interval of durations in different units is their greatest common divisor (partial; `Props/Units`). The computation with log10, min, gcd is shown equal to the gcd of the values for decimal units; a witness with half seconds.
* **C70** Conditions that mean the same can replace each other (proved; `Props/Equiv`). Lockstep simulation of the two runs, step by step, over any pair of conditions that evaluate alike in all states and stores; then the laws one by one. The unit of absolute time agrees because greatest common divisors are unique.
* **C71** Termination conditions only decide when a run ends (proved; `Props/Cut`). Lockstep simulation of two runs whose termination conditions are unsatisfied; for lasting conditions, invariants that they stay unsatisfied while a pass has chosen nothing (so that cutting a pass short yields no empty set) and stay satisfied from the cut to the next check.
* **C72** A part of the graph that nothing outside influences keeps its schedule (proved; `Props/Part`). Two runs are not in lockstep, so the step machine is first turned into a relation with one move per consideration set (a loop of sweeps over the set) and one per pass; two such relations are shown to agree on the part, set by set, by induction over passes and queue positions, with the shorter queue padded by empty sets.
* **C73** An alias of a time scale is the scale itself (proved; `Props/Alias`). The namespaces that aliases change are modelled as dictionaries of names; the left-to-right scan of str.replace is proved equal to an inductive specification of replacement, class names to a specification by words, and the effects follow by induction over the names of the package.
* **C74** Removing an alias of a time scale undoes setting it (proved; `Props/Alias`). The names added are shown to be appended, and all to contain the alias's class name, so that the removal loop drops exactly them (induction over the added names, with what was added later kept as a tail); one alias per scale by an invariant over all histories of calls.
* **C75** A run does not depend on what ran before it (proved; `Props/Again`). A relation between two schedulers (same queue, same conditions up to the identity of objects, equal counts in the update and finer units, equal increments of the clock since the update began) is shown to be kept by every step of the run, with equal events; it holds after the start of the runs because the start resets the counts. Successive runs by induction, using that a run that returns is unique.
* **C76** Environment sequences advance exactly when end_environment_sequence is called (proved; `Props/Session`). A session is an inductive relation over everything a user may do with a new scheduler, recording calls of end_environment_sequence and runs that reached their end. By induction over it the clock of each id shows a history of increments whose counts are those of the record; each step of a run is shown to add finer units only, except when it leaves the outer loop.
* **C77** Structural conditions decide the order of execution (proved; `Props/Placed`). The composition theorem C32 gives the graph and queue a run sees; built-in conditions keep it a dict with the same nodes and senders among them (an invariant of all set objects on the heap); the position theorems C36-C38 and the layer order C06 then give the order of the selections, and the default schedule follows as in C09.
* **C78** A run of N passes (proved; `Props/NPasses`). Invariant over the program counter: the positions considered so far are so many copies of 0, ..., L-1 and an initial part of one; the clock shows as many completed passes (from the log of its increments, C22), so the termination condition cannot become satisfied inside a pass. The end of the run from the bound on the number of sets.
* **C79** The complete schedule of nodes with rates (proved; `Props/RatedList`). Invariant over the program counter: the sets yielded so far are those of the passes before, computed by a closed formula, and of the first k consideration sets of the current pass; membership of each chosen set by C62. With the default termination conditions the list is cut at the shortest initial part that contains every node (C15).
* **C80** Deleting an execution context (proved; `Props/Delete, Life`). _delete_counts as removal of the id from the five dictionaries. What operations never change (nodes, graph, conditions, queue, owners) is an invariant of any use of the scheduler; a scheduler that stores nothing under an id is ready for it in the same way as a new one, and runs from two ready states go in step (C29).
* **C81** A reference scheduler that remembers only what was yielded (proved; `Props/Reference`). The reference scheduler of Spec/Reference.lean is a function on lists of yielded sets. Simulation: the counters, the clock and the execution list of a state are the ones that belong to the list of sets yielded (invariants of C11, C12, C17, C22), hence each described condition evaluates to what the reference says; the choice loop of the code is the reference's rounds through the set; by induction over the steps of the run the reference has yielded the same at corresponding points. Complete runs before are added to the past one by one. In absolute time the clock shows the start time plus one interval per set yielded (C20), which decides TimeInterval and TimeTermination. An NWhen that is the condition of a node has been satisfied as often as the node executed under the id, since every satisfied evaluation selects the node.
* **C82** The names of nodes do not matter (proved; `Props/Isomorphic, Rename`). Spec/Rename.lean says what it means to rename a graph, a condition, a scheduler, a history. Every function of the model commutes with renaming: the topological sort, evaluation of conditions (user functions are conjugated), the counters, start and one step of run; then induction over the steps, in both directions.
* **C83** The schedule depends only on what the graph and the conditions say (proved; `Props/Restate`). Spec/Restate.lean says when two schedulers are the same, written down differently, and when the order inside a set cannot matter (conditions that further choices can only make true). Both runs are compared with the reference scheduler of C81; for that scheduler the choice from a set is the least fixed point, so it does not depend on the order. With C82, a symmetry of the scheduler is a symmetry of the schedule.
* **C84** No condition is lost silently (proved; `Props/Warn`). Verif/Warn.lean repeats the condition set's functions with the warnings they give; Spec/Warn.lean has histories of calls with all warnings. The theorem is an invariant of such histories. That the functions without the warnings are those of the model is proved (WarnLemmas.lean).
* **C85** A cyclic graph is announced, and what warnings say about the graph is true (proved; `Props/WarnGraph`). The scheduler's calls with their warnings. Every graph on the stack that cannot be sorted was pushed with a warning, which is an invariant also if calls raise. The converse uses that the stack holds the compositions of the prefixes of the conditions (C32).
* **C86** Warnings are given whenever they should be, and name the cause (partial; `Props/Regraph, Warn, WarnGraph`). False as stated; witnesses for each sentence, and the parts that hold. For exact-time mode, a step of the scheduler commutes with the replacement of the graph when the queue stays the same and no condition looks at the graph.
* **C87** The options of a structural condition mean what is written (proved; `Props/GSCArgs`). Verif/GSCArgs.lean models the constructors with dicts as objects that calls write to. Spec/GSCArgs.lean says what an option means without parsing. Calls keep or parse entries (`Evolves`), and parsing is idempotent; the effect depends on the operations of the subjects only.
* **C88** Mistakes in the options of a structural condition are rejected when it is created (partial; `Props/GSCArgs`). False as stated; witnesses, the exact condition under which a call is accepted, and that an option without meaning never has an effect.
* **C89** Creating conditions leaves their arguments and each other alone (partial; `Props/GSCArgs`). False as stated; witnesses, and the frame property over all histories of calls.
* **C90** A run raises only what a condition raises, and sensible conditions never do (proved; `Props/Safe`). Spec/Safe.lean says which conditions make sense (`Sane`), without evaluation. A step raises only where a condition is evaluated (case analysis of the loop, given that counters, clock and lists exist, which is an invariant); a sensible condition evaluates in every state of a run (induction on conditions); both are kept by runs.
* **C91** Saying it twice changes nothing (partial; `Props/Edits`). After the first application the owner is in place for every subject (C36-C38), and then `modify_graph` returns a copy; lifted to `add_condition` through the invariant of the graph stack. A concrete condition for which the second application changes the graph refutes the full claim.
* **C92** For each edge the last call decides (proved; `Props/Edits`). Induction on the list of calls with C35; the spec looks up the last call about an edge. Permutations of calls about different edges have the same last calls.
* **C93** Adding an edge only delays, removing one only advances (proved; `Props/Edits`). The position of a node is its longest chain (C03); chains survive adding edges, and chains to nodes that do not depend on the receiver cannot use the new edge.
* **C94** A custom structural condition calls its function as documented (proved; `Props/Custom`). Verif/Custom.lean: a function is a signature (as for C52) and an arbitrary body on the heap of sets. Case analysis of `_process`, frame argument for the copy, composition with the graph stack (`added_graph`).
* **C95** Conditions changed during a run are obeyed from the next set on (partial; `Props/Midrun`). A change during a run is a step of the environment `E` of `Reach`; `Edited op` says what a call of the scheduler's methods does to what the run sees (through the graph stack of Verif/Structural.lean). C07 and C08 hold for arbitrary `E`; invariant: conditions do not change while a set is chosen. Refuted for removed conditions by a concrete run.
* **C96** A graph changed during a run (partial; `Props/Midrun`). Invariant of the loop for arbitrary `E`: the positions considered in the pass are 0, ..., k-1, and how the inner loop was left. Refuted for the pass in which the change happens by two concrete runs.
* **C97** NWhen is a quota over the whole life of the scheduler (proved; `Props/Quota`). Invariant over `Life`: executions of the node under the id plus the initial count are at most the object's count, which is at most max(n, initial). For the exact version: a condition that does not contain the object does not change its count (`Without`), so only the step that selects the node does.
* **C98** How often conditions are evaluated (proved; `Props/Work`). `evaluates` names the node whose condition the next step evaluates; `C98_only` proves that the step is the same under all conditions that agree on that node. Measure: evaluations left in the choice, at most the triangular number of unselected nodes; decreases with each evaluation. Summed over the queue for one request.
* **C99** A run waits for ever exactly if nodes wait for each other (proved; `Props/Stuck`). Waiting conditions are evaluated by an explicit monotone function of the passes and counts (`holds`). If it is true, what the condition waits for has come (gives C99_never by induction over the run). Conversely, a node whose suppliers are selected in every window of M passes is selected in every window of M' passes: in a longer window without it, its condition would have been true at a completed choice, against C08. So the nodes that are not selected regularly are a stuck set; without one the passes are bounded and the run ends (`bounded_ends`), and it cannot raise.
* **C100** A scheduler's conditions handed to another scheduler mean the same there (partial; `Props/Adopt`). `CSet.asDict` is what iterating over a set gives; `Stack.adopt` is the constructor with it. Invariant `CSet.Sane` over all quiet calls: the view shows the attributes. Two lists of structural conditions with the same projection to each owner compose to the same graph if conditions of different owners commute (`composed_shuffle`, as for traces). `add_condition_set(self)` is a step machine whose list loop is over the live list; an invariant shows that it never leaves it.
* **C101** Schedulers in one program do not disturb each other (proved; `Props/Together`). `Prog`: one `Store` and a family of schedulers with their generators; a program is a list of deeds for schedulers. Two lemmas: a deed changes only attributes of the objects of its scheduler and makes new ones (`Seat.act_local`, from `Stable.step`: a step only evaluates the conditions of the scheduler and of the run), and schedulers whose condition objects correspond under an injective renaming do the same (`MirrorSeat.act`, from `eval_rename`, `Mirror.step`, `Mirror.start`). Induction over the program with the renaming growing at every `run`.
* **C102** All and Any combine every condition they are given (partial; `Props/Composite`). The constructors are modelled as functions on the arguments (Verif/Composite.lean). For the accepted calls the claim reduces to C23; for all others the exception is computed.
* **C103** Loosening conditions never makes a node fall behind (proved; `Props/Loosen`). Two runs are compared position by position. Invariant of one run: for EveryNCalls(d, k) on b, calls(b)*k + calls of d since = calls(d), and fewer than k are left over once b was considered. Comparison: when a node is chosen in the first run, its condition cannot be rejected at the end of the loop over the same set in the second.
* **C104** Only the proportions of durations matter (proved; `Props/Tempo`). A relation between schedulers (SysTempo) is preserved by the beginning of a run and by every step, which give the same results. The greatest common divisor of durations that are multiplied by k is multiplied by k (from its characterisation by divisibility), and so are minima, maxima and remainders. In a run without absolute time no condition that is looked at has a repeat.
* **C105** Conflicting operations are reported as such, whatever the nodes are (partial; `Props/ConflictText`). Model of the texts as far as they can fail: the four collections of neighbours that are joined, in the same two loops. The loops with and without texts are compared step by step. A conflict means that a node is among the results of an operation, hence among its arguments, so something is joined.
* **C106** A forked execution context continues as its base would (partial; `Props/Fork`). Simulation between the run of the base and the run of the fork from the same state: counts, useable counts and history stored under the two ids are equal at each step, and the two clocks have counted the same since the update began. Both are followed in lockstep, so the simulation gives both directions.
* **C107** The keyword arguments of a condition may have any name (partial; `Props/CondAttrs`). Model of the object with its attributes and of setattr on it, with properties; the state after the loop over the keyword arguments is computed by induction, and evaluation compared with that of C52.
* **C108** The names of execution ids do not matter (proved; `Props/RenameId`). Renaming of ids as a function on states, with an inverse; every function of the model commutes with it, so lives of schedulers are mapped to lives; the converse by the inverse.
* **C109** The clock object of an execution id (partial; `Props/ClockObjs`). A dict of addresses and a heap of clock objects, with the three places that create clocks; invariant: every object is in the dict at most once. Refinement to the values of the main model.
* **C110** A rejected structural condition blocks the scheduler until it is removed (proved; `Props/Blocked`). Invariant on the stack of graphs: while the first condition that is not applied yet raises, the stack belongs to the conditions before it, and calls change the set of conditions only.
* **C111** The effect of structural conditions depends on the edges of the graph only (partial; `Props/Isomorphic, SameGraph, SameScheduler`). Edge-by-edge description of each stage of a repositioning condition (operations, placing, removal of self-edges, reconnection), from which the order has disappeared. For reconnection in an acyclic graph: every path from a former receiver of the owner back to a former sender leads through the owner, so added edges do not influence later ones. The three exceptions are shown by concrete graphs; for pruning with an enumeration of cycles that is proved correct (`cyclesOf_lists`). For whole schedulers: the composition theorem (C32) and the theorem on restated schedulers (C83).
* **C112** The names of the nodes do not matter to structural conditions, calls and the runs after them (proved; `Props/Isomorphic, RenameStack`). Each function of the model of structural conditions and of the graph history of a scheduler is shown to commute with the renaming, operation by operation; calls by cases on the call, sequences by induction, runs by C82.
* **C113** Any pattern of execution that is possible can be scheduled, and no other (proved; `Props/Patterns`). The reference scheduler of C81 is computed for timetables: the choice from a consideration set is the set of its nodes whose pass it is, by induction over the sets, then over the passes. C78 and C90 give that the run returns. The converse is an invariant over all runs.
* **C114** Nodes of different consideration sets never execute at the same absolute time, except in exact-time mode (proved; `Props/SameTime`). Times of the sets of a run are T + k u with u > 0 (C115), so equal times mean the same set, which comes from one consideration set. The rest follows from C60 and C50.
* **C115** Absolute time passes (partial; `Props/SameTime`). The interval is a greatest common divisor (C49), so it is positive unless all times it is taken of are 0. The archimedean property of the rationals gives the number of sets. The converse and a concrete endless run refute the full statement.
* **C116** A scheduler with structural conditions behaves as one created for the graph they make (proved; `Props/AsIf`). The stack shows the composition of the structural conditions present (C32). The two graphs have the same keys and edges, so the layers have the same members (C01, C02), and C83 gives the same runs.
* **C117** Rounding of absolute times never decides when a node executes (partial; `Props/Rounded`). Verif/Rounded.lean repeats the two definitions in which the code rounds, with the rounding. In a run the time is T + k g / n in units of the clock with g whole and n the number of consideration sets, so a remainder that is not 0 is at least 1 / n, which is not rounded to 0 if n is below 2 * 10^8. A concrete start of one picosecond refutes the full statement.
* **C118** A node can be made to go first (proved; `Props/GoesFirst`). By the reference scheduler (C81) such a run is a calculation with lists: a node other than d executes when d has executed since it last did. Invariant between passes: exactly the nodes in the sets before the one of d are ready.
* **C119** The complete schedule of nodes with rates, also within a consideration set and in exact-time mode (proved; `Props/SameSetRates`). By the reference scheduler (C81). Of the calls a node waits for, those with k * rate(d) smaller than its rate are always there before the pass in which it is due; those that attain the rate come in that pass, before the node: within a set, the loop goes on as long as something was added, and the nodes that are due but not yet chosen have a least one in the acyclic order. Invariant over the list of calls (RateTally). Stopping: a run that stops is compared with one that does not (reference_cut).
* **C120** The phasing examples of the documentation hold for all numbers (proved; `Props/Phasing`). By the reference scheduler (C81): induction over passes, with the counts of calls, and of calls since the last call of a node, as functions of the number of passes.
* **C121** A caller that modifies the yielded sets changes the history, not the schedule (proved; `Props/Tamper`). A simulation: each function of the model, from the start of a run on, preserves the relation 'the same but for recorded sets and times' and has the same outcome (`step_both`, `start_both`).
* **C122** Exact-time mode is standard mode without the edges (proved; `Props/ExactMode`). Each function of the model commutes with replacing the mode and the graph if the queue has one set (`step_inStandard`, `start_inStandard`); the interval by the uniqueness of greatest common divisors; `toposort` of a graph without edges is one set.
* **C123** The text of a time identifies the moment (proved; `Props/TimeText`). `repr` as a list of characters; fields are read back by cutting at commas (`comma_cut`, `text_inj`), numbers by the inverse of their decimal digits; the times of the yields of a run increase strictly (`Reach.timely`).
* **C124** The current time is live, recorded times are snapshots (proved; `Props/TimeObjs`). Times as objects on a heap, refined to a program on values (`allSeen_step`); the invariant (`TimeObjs.Good`) says that each current time is an object of its own.
* **C125** Turning warnings into errors (proved; `Props/Strict`). The functions of `Warn` cut at each call of `warnings.warn` (`Strict`); every one is related to the plain one by `Cut` (first warning or exception, same state if there is no warning); contents by `Spec.Holds`.
* **C126** Nodes with the same condition execute together (proved; `Props/Twins`). By the reference scheduler of C81: a rule not affected by the choice of other nodes of its set is decided when the set is considered (`choice_decided`), the rules of the two nodes agree as long as they were together so far (`rule_together`), induction over passes (`reference_together`).
* **C127** Starting a run when warnings raise (proved; `Props/StrictRun`). `StrictRun`: the start of a run cut at its warnings; induction over the nodes in `_validate_conditions` (an implicit condition warns exactly if the node is its own sender), and idempotence of that validation.
* **C128** Conditions on the numbers of passes and runs select exactly those passes (proved; `Props/ByPass`). By the reference scheduler of C81: such a condition depends only on the numbers of completed runs and passes (`holds_due`), so that the node is chosen once or never in a pass (`passFrom_times`, `reference_times`); meaning of the conditions in `Spec.ByPass`.
* **C129** A graph whose origins execute in certain passes executes as a whole in exactly these passes (proved; `Props/AsOne`). By the reference scheduler of C81 and the order of the sets (C01, C02): at the beginning of each pass no sender of a node without condition has executed since the node did (`AllServed`); a pass in which the origins are due therefore executes every set in full (`passFrom_whole`), any other one nothing (`passFrom_idle`).
* **C130** Along a chain of nodes that wait for calls of each other the numbers multiply (proved; `Props/RateChain`). By the reference scheduler of C81: whenever a node is chosen, what it waits for has been called often enough since (`rule_needs`); so in every part of the history k times the calls of n and the calls of d since then are at most the calls of d (`EnoughCalls`, `reference_enough`); along a chain by induction.
* **C131** A schedule can be computed pass by pass (proved; `Props/Recurrence`). By the reference scheduler of C81: each pass goes through the sets in order and calls no node twice (`OrderedPass`), so that the calls a condition of a node in a set sees are, of earlier nodes, those of the whole pass, and of later nodes, those of the passes before (`PassSeen`, `since_passes`, `since_passes_later`); recurrence in `Spec.Recurrence` (`executesIn`), proved for every pass in `reference_recurrence`; that it has one solution by induction over passes and places.
* **C132** A standstill is final (proved; `Props/Standstill`). By the reference scheduler of C81: what conditions on calls say depends only on the nodes that executed in the runs, the run and the pass (`SameCalls`); empty sets and empty passes do not change these, so that in the pass after an empty one the same rules fail again (`passFrom_unable`, `unable_passFrom`, induction over passes in `reference_standstill`).
* **C133** It does not matter where runs end to conditions on a longer time (proved; `Props/OneRun`). By the reference scheduler of C81: what such conditions say depends only on the list of all sets yielded so far, those of the pass and the number of all passes (`SameLife`), which are the same after the end of a run as before it; induction over passes (`reference_life`, `reference_shorter`).
* **C134** Conditions that look at the current pass only make all passes alike (proved; `Props/AllAlike`). By the reference scheduler of C81: what such conditions say depends only on the sets of the current pass (`SameNow`), so that each pass is the one that the rules make of an empty past (`passFrom_now`, `reference_alike`). Under the default termination conditions a first pass that does not end the run is whole, and no later pass contains another node (`passFrom_shortened`, `passFrom_unshortened`, `reference_once`).

## Modelling decisions

* Python dicts are insertion-ordered association lists with unique keys; sets are
  duplicate-free lists whose order is the (arbitrary) iteration order. Theorems
  quantify over all lists, so over all iteration orders. Where the order matters for
  behaviour (consideration sets) C31 compares different orders.
* Node names, execution ids and the outside world are type parameters. Node equality is
  decidable equality (Python `__eq__`/`__hash__` of nodes are assumed to agree).
* Exceptions are values. State changed before an exception is raised stays changed:
  functions that can raise midway return the state as well.
* `run()` is a Python generator. It is a machine with an explicit program counter; `Reach`
  lets an arbitrary environment act between two `next()` calls, and `Life` interleaves any
  number of generators with any user actions. User actions that a theorem excludes are
  excluded in its hypotheses (`Keeps E ...`), not in the model.
* Node state read by conditions (`is_finished`, attributes) and user functions is a
  parameter: an arbitrary world value that may change at every yield. User functions
  are arbitrary functions of the scheduler's view.
* Condition objects have identities; ownership and `NWhen` counters are stored per object,
  so sharing of objects is visible (C55).
* The sets in a dependency dict are mutable objects in `GSC` (a heap), because the code
  shares them between nodes (C36, C39, C40, C42).
* `networkx.simple_cycles` is a parameter: any function that returns cycles of its
  argument, at least one if there is one (`cyclesOf_lists` gives one such function). `networkx.ancestors/descendants` are a graph
  search.
* Absolute time is exact rational arithmetic in one unit. pint's conversion between SI
  units multiplies by powers of ten; floats are out of scope.
* Termination conditions are given per run as two conditions (`esu`, `seq`); how they
  are found is modelled in `TermConds`.

## What is not modelled

* `_version.py`, logging, the texts of warnings, filters that turn warnings into
  exceptions (except in `Strict` and `StrictRun`), `__str__`/`__repr__` other than those of `Time` and `SimpleTime`, docstring rewriting, drawing of graphs.
* pint itself: its parser of texts and its table of units are parameters of `Units`
  (a `Registry`). Float rounding: numbers are rationals. The two explicit
  roundings to eight places in the scheduling loop are left out of `Scheduler` and `Condition` and modelled in `Rounded` (C117).
* Keyword arguments of a `Condition` whose names begin with two underscores.
* Docstrings that aliases of time scales change; aliases named by non-ASCII letters.
* Runs under an execution id that itself has an attribute `default_execution_id` (the code then
  uses the clock of that id; `get_clock` and the deletion of clocks are modelled in `ClockObjs`).
* Threads. A generator is not re-entered while it runs.
* Modifying `Scheduler` attributes that are not part of the API. (Modifying the sets it yields, or the
  recorded history, is the subject of C121; the other properties assume that it does not happen.)

## Where the code disagrees with its documentation or the listed property

Each is proved by a theorem with a concrete witness where one is named.

1. `run(execution_id=new)` copies the counts and history of the id `None`, it does not
   start empty (`C28_copies_default_context`, `C28_yields_differ`).
2. `execution_timestamps` has no entry for ids first used by `run()`; in absolute time
   a set is appended to the history and `KeyError` is raised before it is yielded
   (`C17_unyielded_entry`).
3. Call counters at ENVIRONMENT_SEQUENCE scale are never reset; at
   CONSIDERATION_SET_EXECUTION scale they equal those of PASS.
4. A structural condition that raises while graphs are rebuilt leaves the stack behind
   (`C34_after_removal`, `C34_bulk`, `C110_earlier_removed`).
5. `remove_condition` returns `None` for an owner's basic condition, raises for an owner
   whose only condition is structural, and returns conditions that were not there
   (`C44_owner_returns_none`, `C44_owner_structural_raises`, `C44_absent_returned`).
   Assigning a structural condition with `conditions[n] = c` (`C43_setitem_structural`).
6. `BeforeNodes` with `owner_senders=KEEP` and `subject_senders=REPLACE` makes owner and
   subject share one set object and loses the required edge (`C36_edge_lost`,
   `C40_shared`, `C42_shared`).
7. Termination conditions keyed by names raise `RuntimeError` in `run()` and in the
   setter (`C58_names_raise`).
8. The order of iteration over a consideration set can matter (`C31_order_matters`).
9. Pass conditions with `time_scale=PASS` count over the whole life
   (`C22_unit_ignored`); consideration-set conditions with `time_scale=PASS` raise
   (`C22_cse_in_pass_raises`). A clock query whose scope is not coarser than the counted
   unit counts over LIFE (`C21_clock_life`).
10. A node with a self-edge and no condition never executes (`C09_self_edge_never`).
11. An inclusive `TimeTermination` as the only absolute condition ends the run before
    anything executes (`C51_nothing`, `C51_plain`).
12. A termination condition that cuts passes short makes `TimeInterval` nodes miss
    executions (`C48_cut`); exclusive start times are not reached in exact-time mode
    (`C50_exclusive`).
13. On an empty graph in absolute time `next()` never comes back
    (`C18_empty_graph_absolute_diverges`).
14. `JustRan` with an empty history raises `IndexError` (`C25_nothing_yielded`).
15. Implicit conditions are frozen by the first run (`C54_frozen`, `C54_stale`).
16. A condition object shared between nodes changes owner (`C55_shared`), and a shared
    `NWhen` shares its counter (`C55_shared_nwhen`).
17. The graph is stale after a removal when the condition object had another owner
    (`C32_other_owner`).
18. A stale cached result is returned when hashes collide (`C53_collision_stale`).
19. Surplus arguments can make a call illegal that was legal without them
    (`C59_surplus_keyword_only`, `C59_surplus_collides`). Positional-only parameters are never
    supplied (`C59_positional_only`), parameters with defaults not by position
    (`C59_default_dropped`). `C59_exactly` says when a legal call stays legal.
20. Durations are rounded to eight decimal places: `1e-9` ms is stored as 0
    (`C67_vanishes`). `TimeInterval(start="9ms", end="10ms")` is rejected because texts are
    compared as texts (`C68_texts`). With units that are not powers of ten of each other
    the common interval is wrong (`C69_half_seconds`).
21. `Not` hides absolute time: `Not(Not(TimeInterval(start=...)))` does not put the
    scheduler in absolute-time mode, so the node never executes (`C70_not_not_interval`).
22. A termination condition that looks at the current pass can become satisfied between
    the check before the pass and the check before its first consideration set; the run
    then yields an empty set that no run without an end yields (`C71_extra_empty`).
23. `JustRan` looks at the last set of the whole run, so an unrelated node that runs in
    between makes it unsatisfied (`C72_just_ran`). `NWhen` inside another condition counts
    every time it is asked, so an unrelated node that runs in the same consideration set,
    and thereby causes another round, uses up its quota (`C72_nwhen_inside`).
24. `set_time_scale_alias` with the name of a member of `TimeScale` raises, but has
    recorded the alias by then (`C73_half_set`). A second alias for a scale makes the
    first impossible to remove (`C74_second_alias`). Removing an alias removes every
    class whose name contains the alias's class name (`C74_loses_classes`; a comment in
    the code says so).
25. The clock is not set back when a run is abandoned, so the next run goes on in the
    middle of an environment state update: `AtPass(0)` is then never satisfied
    (`C75_abandoned`). `JustRan` sees the last set of the run before (`C75_just_ran`).
26. The warning about a condition that depends on its owner looks at the first dependency
    only, not at parts that have an owner, and not at `Threshold` (`C86_self_missed`). The warning about a cycle
    names the last structural condition, which need not be the one that makes the cycle
    (`C86_blame_wrong`). In exact-time mode structural conditions are said to have no
    effect, but they change the implicit conditions (`C86_exact_effect`).
27. A dict of operations that lacks a subject is accepted: the check computes
    `subject.keys() - set(nodes)` instead of the reverse (`C88_missing_accepted`). An
    unknown name of an operation is accepted too and raises `TypeError` only when the
    condition is applied (`C88_unknown_accepted`). The constructor writes to the dict it is
    given, also when it fails (`C89_written`, `C89_written_on_failure`).
28. A `BeforeNodes` condition that shares sets between owner and subject (see item on
    `C36_edge_lost`) is not idempotent (`C91_not_again`); nor is `WithNode` if its subject
    has a self-edge and receivers are replaced (`C91_not_again_with`). If the owner of
    `WithNode` has a self-edge, it is not in the consideration set of the subject
    (`C38_self_edge`).
29. `run()` keeps a position in `consideration_queue`, which is computed anew from the
    current graph: a node is executed twice in a pass, or left out of it, if the graph is
    changed in between (`C96_twice`, `C96_skipped`). Removing a node's condition during a run
    makes the run raise `KeyError` (`C95_key_error`).
30. `NWhen` counts over all runs under an execution id, and nothing resets it: once it is used
    up, a run with the default termination conditions never ends (`C97_never_returns`).
31. A `ConditionSet` given to another scheduler loses the order of structural conditions across
    owners, so that the graph can be another one (`C100_order_lost`); given to itself it is an
    endless loop if an owner has several structural conditions and no basic one
    (`C100_itself_never_ends`).
32. `All` and `Any` take keyword arguments, but raise `TypeError` for two of them or
    for a condition as a value: `tuple(*[...])` (`C102_keyword_raises`).
    `AfterNCallsCombined` documents `n+1` but tests `>= n` (`C26_combined_documented`).
    `TimeHistoryTree(max_depth=CONSIDERATION_SET_EXECUTION)` raises `ValueError`
    (`C21_finest_depth`).
33. A node with two senders and no condition can run less often when one of them runs
    earlier: calls of a sender beyond the first are forgotten when the node runs
    (`C103_two_senders`).
34. A `TimeInterval` with `repeat` in `Not` or `NWhen` does not make a run use absolute
    time. It is then evaluated as if each consideration set execution took 1 ms, in
    which unit ever the other durations are (`C104_hidden`).
35. A disagreement between operations raises `TypeError` instead of `ConditionError` if the
    nodes are not strings, because the message joins them (`C105_unprintable`).
36. A fork does not take over the clock of its base: `run` asks for the clock of the new id, which
    creates one, before `_init_clock` could copy it (scheduler.py:878, 587; the comment there
    says that it does not work).  Nor does it take over the counts of `NWhen` (`C106_time`,
    `C106_quota`, `C106_abandoned`).
37. Keyword arguments of a `Condition` are also set as attributes, so some names replace what the
    condition itself uses or make its creation fail (`C107_positional`, `C107_keywords`,
    `C107_method`, `C107_swallowed`, `C107_rejected`, `C107_validator`).
38. Execution ids that have an attribute `default_execution_id` use the clock of the id it names,
    so such ids can share a clock, and deleting the context of one of them does not delete its
    clock (`C109_shared`, `C109_survives_deletion`, `C109_not_deleted`, `C109_unused`).
39. The effect of a repositioning condition depends on the order in which the graph is written if
    conflicts are ignored, if a graph with cycles is reconnected, and if cycles are pruned
    (`C111_conflicts_order`, `C111_reconnect_order`, `C111_pruning_order`).
40. In exact-time mode absolute time stands still if all inclusive start, end and termination times
    and repeat intervals are 0, because the interval between two sets is their greatest common
    divisor (scheduler.py:1022); a run with `TimeTermination(t, inclusive=False)` then never ends
    (`C115_stands`, `C115_never_ends`, `C115_fromZero`).
41. The time at which a run starts is rounded to eight decimal places of the unit of the interval
    (scheduler.py:898-904). With `TimeInterval(repeat='1 ms', start='1 ps')` on one consideration set
    it becomes 0 ms, and from there no time is a repetition after the start: the node never executes
    (`C117_lost`).
42. If warnings are turned into exceptions, a structural condition that merely warns (no such edge, a
    cycle) can leave a scheduler without any graph, if another one was removed before and the graph not
    read since (`C125_after_removal`); the same cause as 'C34_after_removal'.
43. Found while reading, outside the model: `Not` and `NWhen` hide that a
    condition is absolute; `Time.__init__` ignores its `absolute*` arguments; `Threshold`
    never gives the warning about its dependency; the check `self.consideration_queue == 1` (scheduler.py:814) is never true;
    a one-shot iterator given as `indices` is used up by the first evaluation.

## Trusted base

* Lean's kernel (version 4.33.0). No axioms are added, there is no `sorry` and no use of
  `native_decide` or `bv_decide`. `decide +kernel`, used in examples and witnesses,
  is evaluated by the kernel.
* That the model says what the code does: every definition cites the lines it
  models, and the code was read, not executed. `seeded/LOG.jsonl` records the wrong programs
  the theorems were tried against.
* The modelling decisions above.

### Axioms each theorem depends on (`#print axioms`)

* propext: C100_order_lost, C102_keyword_raises, C107_rejected, C110_earlier_removed, C125_after_removal, C21_finest_depth, C21_tree_life, C32_other_owner, C33_reads, C34_after_removal, C43_owner, C43_setitem_structural, C44_ambiguous, C44_ownerless, C59_surplus_collides, C59_surplus_keyword_only, C81_monotone, C86_blame_wrong, C86_self_sound, C94_rejected, C98_not_again.

* propext, Quot.sound: C105_depends, C108_new, C108_under, C109_shared, C111_conflicts_order, C111_reconnect_order, C112_call, C112_calls, C112_condition, C112_cycles, C112_graph, C112_new, C112_object, C112_read, C125_bulk, C125_rejected, C125_scheduler, C125_set, C125_unchanged, C125_values, C131_determined, C20_history_increasing, C33_undo, C34_bulk, C34_rejected_partial, C35_add, C35_remove, C35_undo, C38_self_edge, C40_shared, C42_shared, C43_additions, C43_one_call, C44_absent_partial, C44_absent_returned, C44_basic_partial, C44_owner_basic_partial, C44_owner_returns_none, C44_owner_structural_raises, C44_structural_partial, C46_clone, C46_receivers, C53_any_function, C53_collision_stale, C59_default_dropped, C80_gone, C82_add, C82_new, C83_add, C83_order, C84_kept, C84_kept_structural, C84_removal_basic, C84_replacing, C85_already, C85_no_edge, C86_blame_partial, C86_self_missed, C86_self_partial, C91_not_again, C91_not_again_with, C92_last_call_decides, C92_same_last_calls, C94_argument, C94_call, C94_documented, C94_scheduler, C95_added, C95_removed.

* propext, Classical.choice, Quot.sound: all other theorems named in `MANIFEST.json` (484).
