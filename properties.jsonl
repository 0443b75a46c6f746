{"id": "C01", "title": "ResBuf quantity is the sum of its contents", "statement": "After any sequence of ResBuf operations (Push one, Push many, Pop, Pop(qty), PopN, PopBack, Decay aside, capacity changes), whether or not individual calls throw, quantity() equals the sum of the quantities of the objects currently held, count() equals the number of objects held, and space() equals max(0, capacity() - quantity()).", "quantifier": "for every sequence of operations with every argument, starting from an empty buffer", "why_tests_cant": "The cached qty_ is updated incrementally on each path; a test covers a handful of histories, while drift can appear after any interleaving of pushes, splits and failed calls.", "anchors": ["src/toolkit/res_buf.h: ResBuf::Push, ResBuf::Pop, ResBuf::PopN, ResBuf::PopBack, ResBuf::quantity, ResBuf::space"]}
{"id": "C02", "title": "ResBuf never holds more than its capacity", "statement": "In every reachable state of a ResBuf the held quantity is at most capacity() + eps_rsrc(); lowering the capacity below the held quantity (beyond eps_rsrc()) or pushing past it throws ValueError and leaves the buffer as it was.", "quantifier": "for every reachable state and every push or capacity change", "why_tests_cant": "The check is against a tolerance and a running total; only an invariant over all histories rules out accumulating overflow.", "anchors": ["src/toolkit/res_buf.h: ResBuf::capacity(double), ResBuf::Push"]}
{"id": "C03", "title": "ResBuf pops are first-in first-out and conserve material", "statement": "Pop() returns the oldest object, PopBack() the newest, PopN(n) the n oldest in order; Pop(qty) returns objects, oldest first, whose quantities add up to qty (splitting at most one object), and the quantity popped plus the quantity left equals the quantity before. Popping from an empty buffer or more than is held throws ValueError.", "quantifier": "for every buffer state and every n and qty", "why_tests_cant": "Splitting an object at the boundary is the only lossy place, and whether it is hit depends on the exact partial sums of the held objects.", "anchors": ["src/toolkit/res_buf.h: ResBuf::Pop, ResBuf::PopN, ResBuf::PopBack"]}
{"id": "C04", "title": "A failed ResBuf call leaves the buffer unchanged", "statement": "If any ResBuf Push/Pop/PopN/PopBack/capacity call throws, the buffer's contents, order, capacity and reported quantity are the same as before the call.", "quantifier": "for every state and every failing call", "why_tests_cant": "Strong exception safety is a statement about all failing inputs and all intermediate points of each loop.", "anchors": ["src/toolkit/res_buf.h: ResBuf::Push, ResBuf::Pop, ResBuf::PopN"]}
{"id": "C05", "title": "ResBuf never holds the same object twice", "statement": "No resource object is ever present twice in a ResBuf: pushing an object that is already held throws KeyError, also when the duplicate occurs inside one vector passed to Push.", "quantifier": "for every history of pushes and pops", "why_tests_cant": "Tests push known duplicates one way; the claim is about every argument vector and history.", "anchors": ["src/toolkit/res_buf.h: ResBuf::Push(std::vector<B>), rs_present_"]}
{"id": "C06", "title": "Package fill masses respect the package limits and never exceed the material", "statement": "For a valid Package, every mass returned by GetFillMass(qty) lies between fill_min and fill_max (up to eps_rsrc()), the masses sum to at most qty (up to eps), and what is left over is less than one more package can take.", "quantifier": "for every quantity, every limits 0 < fill_min <= fill_max, every strategy, and every stream of random draws inside the limits", "why_tests_cant": "The number of packages comes from floor/ceil of quotients; boundary cases are dense in the inputs.", "anchors": ["src/package.cc: Package::GetFillMass, Package::Create", "src/package.h: Package::IsValidStrategy"]}
{"id": "C07", "title": "A transport unit never ships more packages than exist nor a partial unit", "statement": "MaxShippablePackages(pkgs) is between 0 and pkgs, and the shipped packages can be divided into transport units each holding between fill_min and fill_max packages; the unrestricted unit ships everything; fewer packages than fill_min ship nothing.", "quantifier": "for every package count, limits 1 <= fill_min <= fill_max, and strategy first, equal or hybrid", "why_tests_cant": "Integer division and flooring make the answer depend on arithmetic relations between all three numbers.", "anchors": ["src/package.cc: TransportUnit::GetTransportUnitFill, TransportUnit::MaxShippablePackages"]}
{"id": "C08", "title": "Resource quantity is conserved by split and merge", "statement": "For Products and Materials, Extract followed by any further Extract/Absorb calls among a family of resources neither creates nor destroys quantity: the total over the family is unchanged; extracting more than is held throws ValueError and changes nothing; absorbing leaves the absorbed resource empty.", "quantifier": "for every family of resources and every finite sequence of extract and absorb calls", "why_tests_cant": "Conservation is a global invariant over unbounded histories.", "anchors": ["src/product.cc: Product::Extract, Product::Absorb", "src/material.cc: Material::ExtractComp, Material::ExtractQty, Material::Absorb"]}
{"id": "C09", "title": "Nuclide-by-nuclide conservation in Material", "statement": "When material with composition c is extracted from a Material, then for every nuclide the mass in the remainder plus the mass in the extracted part equals the mass before, and the same for Absorb; so over every sequence of extracts and absorbs the total mass of each nuclide is constant (in exact arithmetic, thresholds aside).", "quantifier": "for every nuclide, composition, quantity and history", "why_tests_cant": "The new compositions are computed as normalised weighted sums; the identity is over all real vectors.", "anchors": ["src/material.cc: Material::ExtractComp, Material::Absorb", "src/comp_math.cc: Sub, Add, Normalize"]}
{"id": "C10", "title": "Resource state ids are unique and the recorded genealogy is acyclic", "statement": "Each state id is recorded in the Resources table at most once, every recorded parent id is 0 or an id of a smaller, earlier state, and so following Parent1/Parent2 links always terminates; tracked resources never share an object id.", "quantifier": "for every sequence of create, extract, absorb, package and modify calls on tracked resources", "why_tests_cant": "The genealogy is a graph over the whole simulation history.", "anchors": ["src/res_tracker.cc: ResTracker::Create, Extract, Absorb, Modify, Package, Record", "src/resource.cc: Resource::BumpStateId"]}
{"id": "C11", "title": "Changing a package checks the limits of the package being changed to", "statement": "ChangePackage(name) succeeds only if the resource quantity is within the fill limits of the package called name, otherwise it throws ValueError and leaves the package unchanged.", "quantifier": "for every resource, every current package and every requested package", "why_tests_cant": "Tests use few packages; the claim ranges over all pairs of current and new limits.", "anchors": ["src/product.cc: Product::ChangePackage", "src/material.cc: Material::ChangePackage"]}
{"id": "C12", "title": "Greedy solver respects every node-group capacity", "statement": "In the matches the greedy solver adds, for every request group and supply group and every capacity of that group, the sum over matches of quantity times unit capacity does not exceed the capacity (up to the exclusive-match float tolerance).", "quantifier": "for every exchange graph with non-negative unit capacities", "why_tests_cant": "Graphs are unbounded and capacities interact through shared groups.", "anchors": ["src/greedy_solver.cc: GreedySolver::SolveGraph, GreedilySatisfySet, Capacity, UpdateCapacity"]}
{"id": "C13", "title": "Greedy solver never over-fills a request group or a node", "statement": "The flow the greedy solver assigns to the arcs of a request group never exceeds the group's requested quantity, and the flow through any node never exceeds the node's quantity (up to the solver's tolerances); all match quantities are positive.", "quantifier": "for every exchange graph", "why_tests_cant": "Same: unbounded graphs, running quantities updated in a loop.", "anchors": ["src/greedy_solver.cc: GreedySolver::GreedilySatisfySet, Capacity(const Arc&, double, double)"]}
{"id": "C14", "title": "Greedy solver treats exclusive arcs all-or-nothing", "statement": "Every match on an exclusive arc carries exactly the arc's exclusive value, never a part of it.", "quantifier": "for every exchange graph and every exclusive arc", "why_tests_cant": "Depends on remaining capacities at the time the arc is reached.", "anchors": ["src/greedy_solver.cc: GreedySolver::GreedilySatisfySet", "src/exchange_graph.cc: Arc::Arc"]}
{"id": "C15", "title": "Greedy solver objective accounts for all demand", "statement": "The objective returned by the greedy solver equals the sum over matches of quantity/preference plus the pseudo cost times the unmatched demand, where unmatched demand plus matched flow equals total requested quantity over the request groups.", "quantifier": "for every exchange graph", "why_tests_cant": "Accounting identity across the nested loops.", "anchors": ["src/greedy_solver.cc: GreedySolver::SolveGraph, UpdateObj, GreedilySatisfySet"]}
{"id": "C16", "title": "Preconditioning only reorders the exchange graph", "statement": "GreedyPreconditioner::Condition permutes the request groups and the nodes inside each group, sorting them by decreasing weight and keeping the relative order of equal weights, and adds, drops or changes nothing else.", "quantifier": "for every graph and every commodity-weight map", "why_tests_cant": "Permutation and stability are universally quantified.", "anchors": ["src/greedy_preconditioner.cc: GreedyPreconditioner::Condition, ProcessWeights_"]}
{"id": "C17", "title": "Exchange translation builds one arc per admissible bid and back-translates to the same trade", "statement": "Translating an exchange context yields an arc for exactly those (request, bid) pairs whose adjusted preference is positive; a preference of 0 throws ValueError and negative preferences give no arc; translating matches back yields trades naming exactly the original request and bid with the matched amount.", "quantifier": "for every exchange context and every preference assignment", "why_tests_cant": "The contexts are unbounded and the sign conditions partition the reals.", "anchors": ["src/exchange_translator.h: ExchangeTranslator::Translate, AddArc, BackTranslateSolution", "src/exchange_translation_context.h"]}
{"id": "C18", "title": "Every trade is executed exactly once and gets its own transaction id", "statement": "When a list of trades is executed, every supplier is asked for exactly its own trades, every response is delivered to its requester exactly once, and each recorded transaction (quantity above eps_rsrc()) carries a transaction id never used before.", "quantifier": "for every list of trades, every supplier response and every context state", "why_tests_cant": "Grouping by supplier and by requester is done through maps; exactly-once is over all groupings.", "anchors": ["src/trade_executor.h: TradeExecutor::ExecuteTrades, GroupTradesBySupplier, GetTradeResponses, RecordTrades", "src/context.h: Context::NextTransactionID"]}
{"id": "C19", "title": "A request portfolio has one requester and its quantity is the sum of its demand", "statement": "All requests of a RequestPortfolio have the same requester (a request from another requester throws KeyError and leaves the portfolio unchanged), and qty() equals the sum of the target quantities of the requests added, a mutual-request set counting once with its average.", "quantifier": "for every sequence of AddRequest and AddMutualReqs calls", "why_tests_cant": "A history invariant, with failing calls interleaved.", "anchors": ["src/request_portfolio.h: RequestPortfolio::AddRequest, AddMutualReqs, VerifyRequester_, qty"]}
{"id": "C20", "title": "Mutual requests: meeting any one of them meets the group's demand", "statement": "After AddMutualReqs, satisfying any single request of the mutual set in full consumes exactly the average quantity of the mutual demand constraint, i.e. each member's coefficient times its quantity is the average.", "quantifier": "for every non-empty set of mutual requests with positive quantities", "why_tests_cant": "Real-valued identity over all quantity vectors.", "anchors": ["src/request_portfolio.h: RequestPortfolio::AddMutualReqs, default_constraint_coeffs"]}
{"id": "C21", "title": "A bid portfolio has one bidder and only positive offers", "statement": "All bids of a BidPortfolio have the portfolio's bidder and offer a positive quantity; a bid of another bidder throws KeyError, an offer that is not positive throws ValueError, neither changes the bids; the bidder is NULL as long as no bid has been added.", "quantifier": "for every sequence of AddBid calls", "why_tests_cant": "History invariant with failing calls.", "anchors": ["src/bid_portfolio.h: BidPortfolio::AddBid, VerifyResponder_", "src/bid.h: Bid::Create"]}
{"id": "C22", "title": "Scheduled builds happen exactly once, at their time step", "statement": "A build scheduled for time t (t later than the current step) is performed exactly once, during the build phase of step t, in scheduling order; SchedBuild for the current or an earlier step throws ValueError; a build for a step at or after the end of the simulation never happens.", "quantifier": "for every simulation length and every schedule of builds, including builds scheduled while the simulation runs", "why_tests_cant": "Schedules are created dynamically by agent callbacks; tests fix one scenario.", "anchors": ["src/timer.cc: Timer::RunSim, DoBuild, SchedBuild", "src/context.cc: Context::SchedBuild"]}
{"id": "C23", "title": "Scheduled decommissionings happen exactly once", "statement": "An agent whose decommissioning is scheduled for step t, accepted by the timer, is decommissioned exactly once and at step t; rescheduling moves it; scheduling in the past throws ValueError.", "quantifier": "for every sequence of SchedDecom calls at any phase of any step", "why_tests_cant": "Rescheduling and scheduling from within any phase give an unbounded number of interleavings.", "anchors": ["src/timer.cc: Timer::SchedDecom, DoDecom, RunSim"]}
{"id": "C24", "title": "Time-step phases run in a fixed order for every registered listener", "statement": "In each time step the phases snapshot, build, tick, material exchange, product exchange, tock, decision, decommission, event loop happen in that order; unless listeners are registered or deregistered in between, each registered listener receives exactly one Tick, one Tock and one Decision per step (Tick and Tock: Python listeners first, then the others, in registration order; Decision in agent-id order); the step counter increases by one, and the run ends after duration steps, or after the step in which KillSim was called, as the Finish row says.", "quantifier": "for every duration, every set of listeners, and every kill request", "why_tests_cant": "An unbounded trace property.", "anchors": ["src/timer.cc: Timer::RunSim, DoTick, DoTock, DoDecision, RegisterTimeListener, KillSim"]}
{"id": "C25", "title": "The agent tree stays consistent", "statement": "After any sequence of creating, building, decommissioning and deleting agents (each agent being built at most once) no freed agent has been used, every built agent is in its parent's children set and in no other, every parent and child exists, and the context's list has exactly the existing agents; decommissioning an agent removes exactly it (and, as context.h documents, its children recursively), unregisters it and records one exit; deleting the context deletes every agent.", "quantifier": "for every agent tree and every sequence of operations", "why_tests_cant": "Tree invariants over dynamic histories.", "anchors": ["src/agent.cc: Agent::Build, Connect, Decommission, ~Agent", "src/context.cc: Context::DelAgent, RegisterAgent, UnregisterAgent"]}
{"id": "C26", "title": "Agent lifetime and exit time", "statement": "An agent that enters at time e with lifetime n (n not -1) has exit_time e+n-1, is decommissioned by its parent institution at the end of step e+n-1 and not earlier (if its decommission condition allows), and lives through exactly n time steps; lifetime -1 means it is never retired by its institution.", "quantifier": "for every enter time, lifetime and simulation", "why_tests_cant": "Off-by-one properties for all times.", "anchors": ["src/agent.h: Agent::exit_time", "src/institution.cc: Institution::Tock", "src/timer.cc: DoDecom"]}
{"id": "C27", "title": "Lifetime cannot be changed after the agent entered, except by force", "statement": "lifetime(n) before entering sets the lifetime for every n and afterwards throws and changes nothing; lifetime_force(n) sets the lifetime at any time, and when the new exit time has passed the agent is retired at the next opportunity.", "quantifier": "for every n, enter time and current time", "why_tests_cant": "Decision table over three unbounded integers.", "anchors": ["src/agent.cc: Agent::lifetime(int), Agent::lifetime_force(int)"]}
{"id": "C28", "title": "Context counts equal the number of live agents", "statement": "n_prototypes(p) and n_specs(s) equal the number of agents with that prototype or spec that have entered the simulation and not left it, after any sequence of agents entering and leaving.", "quantifier": "for every sequence of agents entering and leaving", "why_tests_cant": "Counter versus history.", "anchors": ["src/context.cc: Context::RegisterAgent, UnregisterAgent", "src/context.h: n_prototypes, n_specs"]}
{"id": "C29", "title": "Every recorded datum reaches every backend exactly once and in order", "statement": "For any dump count, after Close every datum recorded through NewDatum/Record has been delivered to every registered backend exactly once and in recording order.", "quantifier": "for every dump count and every sequence of recorded data and flushes", "why_tests_cant": "Buffer boundary arithmetic over all counts.", "anchors": ["src/recorder.cc: Recorder::NewDatum, AddDatum, Flush, NotifyBackends, Close"]}
{"id": "C30", "title": "Filtering a query with no conditions returns the whole table", "statement": "Query(table, conds) returns exactly the rows that satisfy all the conditions; an empty condition list, like NULL, returns all rows.", "quantifier": "for every table and every list of conditions", "why_tests_cant": "Quantifies over all condition lists and tables.", "anchors": ["src/sqlite_back.cc: SqliteBack::Query", "src/query_backend.h: CmpConds, CondInjector::Query, PrefixInjector::Query"]}
{"id": "C31", "title": "Variable-length values read back as written", "statement": "Distinct values of a variable-length type written through the HDF5 backend are stored under distinct keys, assuming the hash is collision free, so each reads back as written.", "quantifier": "for every pair of values of each variable-length type, assuming an injective hash", "why_tests_cant": "Universally quantified over all values.", "anchors": ["src/hdf5_back.cc.in: Hdf5Back::VLWrite, VLRead", "src/query_backend.h: Sha1::Update"]}
{"id": "C32", "title": "Restart restores exactly the agents alive at the snapshot", "statement": "Restarting from time t rebuilds exactly the agents that had entered before t (or at t when t is 0) and not exited before t, each once, parents before children, and restores the pending builds and decommissions and all id counters.", "quantifier": "for every database and restart time", "why_tests_cant": "All histories of agents entering and leaving.", "anchors": ["src/sim_init.cc: SimInit::LoadInitialAgents, LoadBuildSched, LoadDecomSched, LoadNextIds, Snapshot"]}
{"id": "C33", "title": "The initial agent hierarchy is built parents first, for every input", "statement": "Loading the initial agents of a flat input file builds every listed agent exactly once with its parent built before it, and reports an error if some agent's parent does not exist.", "quantifier": "for every list of (agent, parent) entries", "why_tests_cant": "Termination and ordering over every graph.", "anchors": ["src/xml_flat_loader.cc: XMLFlatLoader::LoadInitialAgents", "src/sim_init.cc: SimInit::LoadInitialAgents"]}
{"id": "C34", "title": "Commodity priorities given in the input govern the solver", "statement": "The solution priorities written for the commodities at input loading are the weights the greedy preconditioner is created with.", "quantifier": "for every list of commodities with priorities", "why_tests_cant": "Crosses two components (loader and initializer) through a database schema.", "anchors": ["src/xml_file_loader.cc: XMLFileLoader::LoadControlParams/ProcessCommodities", "src/sim_init.cc: SimInit::LoadPreconditioner"]}
{"id": "C35", "title": "Unprioritised commodities rank after all prioritised ones", "statement": "ProcessCommodities keeps every priority that is at least 1 and gives every other commodity one common priority larger than all given ones.", "quantifier": "for every map from commodity names to priorities", "why_tests_cant": "All maps.", "anchors": ["src/xml_file_loader.cc: XMLFileLoader::ProcessCommodities"]}
{"id": "C36", "title": "Agent specs round-trip through their string form", "statement": "Parsing spec.str() gives back the spec, parsing s and printing gives s, for all specs whose fields contain no colon; strings without exactly three fields are rejected; the alias defaults to the agent name; distinct specs sanitize to distinct table names.", "quantifier": "for every string and every triple of names", "why_tests_cant": "String parsing over all inputs.", "anchors": ["src/dynamic_module.cc: AgentSpec::AgentSpec, str, Sanitize"]}
{"id": "C37", "title": "The Python memory backend answers from data no older than the registry allows", "statement": "For every table, MemBack.query returns exactly the rows recorded so far for that table that satisfy the conditions if the table is in the registry, and otherwise asks the fallback; changing the registry drops the cached tables that are no longer registered.", "quantifier": "for every sequence of Notify, query and registry assignments", "why_tests_cant": "History property of a cache.", "anchors": ["cyclus/memback.pyx: CyclusMemBack.Notify (49-104), _MemBack.query (143-181), registry (217-254)"]}
{"id": "C38", "title": "Compiled query conditions mean their conjunction", "statement": "MemBack conditions compile to code that keeps a row iff every condition holds, two condition lists share a cached code object only if they have the same fields and operators, and the code cache never exceeds its bound.", "quantifier": "for every list of conditions and every sequence of queries", "why_tests_cant": "All lists and histories.", "anchors": ["cyclus/memback.pyx: _apply_conds, _compile_conds, _parse_conds (259-310)"]}
{"id": "C39", "title": "The server always resumes after unpause", "statement": "In the Python server, after any sequence of pause and unpause actions that ends with an unpause, the simulation loop eventually continues.", "quantifier": "for every sequence of pause/unpause actions and every interleaving of the consumer and the event loop", "why_tests_cant": "Concurrency: all interleavings.", "anchors": ["cyclus/actions.py: pause, unpause, shutdown", "cyclus/events.pyx: loop", "cyclus/server.py: action_consumer, action_monitor, queue_message_action"]}
{"id": "C40", "title": "Preprocessor types round-trip through text", "statement": "For every canonical C++ type of the cycpp preprocessor, printing with type_to_str and parsing with parse_template gives back the type; outter_split cuts exactly at the separators outside its braces, and joining the parts with the separator gives back the string.", "quantifier": "for every type built from primitives and templates of any depth, and every string", "why_tests_cant": "Unbounded nesting.", "anchors": ["cli/cycpp.py: parse_template, parse_arg, outter_split, type_to_str"]}
{"id": "C41", "title": "Shape annotations are padded to the type", "statement": "canonize_shape returns a shape with one entry per position of the type: missing entries are -1, given ones are kept, and a shape that is too long is rejected.", "quantifier": "for every type and every given shape", "why_tests_cant": "All shapes and nested types.", "anchors": ["cli/cycpp.py: StateAccumulator.canonize_shape (830-874), VarDeclarationFilter.transform_pass2 (502)"]}
{"id": "C42", "title": "UUID literals generated by the preprocessor denote the given UUID", "statement": "The sixteen bytes generated for a UUID default are the bytes of the UUID.", "quantifier": "for every UUID", "why_tests_cant": "2^128 inputs.", "anchors": ["cli/cycpp.py: InfileToDbFilter._val_uuid (1238-1248)"]}
{"id": "C43", "title": "Every state variable snapshotted by generated code is restored by it", "statement": "For every state variable type, generated Snapshot plus SnapshotInv store the variable and generated InitFrom plus InitInv restore it, each exactly once.", "quantifier": "for every list of state variables with any types", "why_tests_cant": "All types and member lists.", "anchors": ["cli/cycpp.py: SnapshotFilter, SnapshotInvFilter, InitInvFilter, InitFromDbFilter"]}
{"id": "C44", "title": "Class hierarchy queries", "statement": "parent_classes returns exactly the ancestors of a class and keeps the parents of all classes, and parent_intersection returns exactly the parents of the class in the query set that are not ancestors of another such parent, so that every wrangler the class derives from is initialised through one of them.", "quantifier": "for every finite class graph without cycles, every class and query set", "why_tests_cant": "All graphs.", "anchors": ["cli/cycpp.py: parent_classes, parent_intersection"]}
{"id": "C45", "title": "Piecewise functions built by the factory are continuous where requested", "statement": "A piecewise function built by PiecewiseFunctionFactory with the default continuity agrees at each segment start with the value of the previous segment, and is zero before the first segment.", "quantifier": "for every list of segment functions and increasing start points", "why_tests_cant": "All functions and segment lists.", "anchors": ["src/toolkit/symbolic_function_factories.cc: PiecewiseFunctionFactory::AddFunction", "src/toolkit/symbolic_functions.cc: PiecewiseFunction::value"]}
{"id": "C46", "title": "Enrichment balances mass and fissile mass", "statement": "For feed, product and tails assays with tails < feed < product, feed quantity equals product quantity plus tails quantity, and feed assay times feed quantity equals the sum for product and tails; all quantities are non-negative.", "quantifier": "for all assays and product quantities", "why_tests_cant": "Real identities.", "anchors": ["src/toolkit/enrichment.cc: FeedQty, TailsQty, SwuRequired"]}
{"id": "C47", "title": "Buy policy never orders more than fits", "statement": "The total a MatlBuyPolicy requests in a step is at most the free space of its buffer and its throughput, and with a quantized request each request is exactly one quantum.", "quantifier": "for every buffer state and policy parameter", "why_tests_cant": "All parameter combinations.", "anchors": ["src/toolkit/matl_buy_policy.cc: MatlBuyPolicy::TotalAvailable/GetMatlRequests", "src/toolkit/total_inv_tracker.h"]}
{"id": "C48", "title": "Sell policy ships everything it takes out of the buffer", "statement": "When a MatlSellPolicy responds to trades, the material leaving its buffer equals the material in the responses.", "quantifier": "for every buffer state, package strategy and list of trades", "why_tests_cant": "All packagings and trade lists.", "anchors": ["src/toolkit/matl_sell_policy.cc: MatlSellPolicy::GetMatlTrades"]}
{"id": "C49", "title": "Composition arithmetic", "statement": "Normalize(v, n) gives a vector that sums to n with the same support and proportions (for a vector with non-zero sum); Add and Sub are pointwise; AllPositive holds of every composition that can be created.", "quantifier": "for every composition vector", "why_tests_cant": "All vectors.", "anchors": ["src/comp_math.cc: Normalize, Add, Sub, AllPositive, ApplyThreshold", "src/composition.cc: Composition::CreateFromAtom, CreateFromMass"]}
{"id": "C50", "title": "Linear-programme solutions respect the exchange constraints", "statement": "Every feasible integer solution of the programme that ProgTranslator builds, translated back, gives matches that respect all group capacities, do not exceed the arcs' bounds, and use each exclusive arc fully or not at all.", "quantifier": "for every exchange graph and every feasible point", "why_tests_cant": "All graphs and all feasible points.", "anchors": ["src/prog_translator.cc: ProgTranslator::Translate, XlateGrp_, FromProg"]}
{"id": "C51", "title": "Commodity producers: the cheapest adequate building order", "statement": "CommodityProducerManager::TotalCapacity is the sum over registered producers, unregistering restores the previous total, and the build orders BuildingManager::MakeBuildDecision returns cover the unmet demand at the least cost.", "quantifier": "for every set of producers and demand", "why_tests_cant": "All sets and optimisation instances.", "anchors": ["src/toolkit/commodity_producer_manager.cc", "src/toolkit/building_manager.cc", "src/toolkit/supply_demand_manager.h"]}
{"id": "C52", "title": "Commodity recipe context lookups are consistent", "statement": "After any sequence of AddInCommod/UpdateInRec/AddRsrc/UpdateRsrc/RemoveRsrc calls and lookups, looking up a commodity or resource gives what it was last associated with, unknown commodities are rejected, and recording and restoring keeps the answers.", "quantifier": "for every sequence of calls and every key", "why_tests_cant": "Histories.", "anchors": ["src/toolkit/commodity_recipe_context.cc", "src/toolkit/commodity_recipe_context.h"]}
{"id": "C53", "title": "Total inventory tracker leaves no more space than its cap", "statement": "The space a TotalInvTracker reports for its buffers never exceeds the total cap minus the tracked quantity, and buf_tracked space never exceeds both the buffer's own space and the total space.", "quantifier": "for every set of buffers and cap", "why_tests_cant": "All states.", "anchors": ["src/toolkit/total_inv_tracker.h: TotalInvTracker"]}
{"id": "C54", "title": "Untracked resources record nothing", "statement": "A resource that is not tracked (created untracked, or a clone), and everything extracted from it, never adds a row to the Resources table.", "quantifier": "for every sequence of create, clone, extract, absorb and package calls", "why_tests_cant": "The unit tests look at single calls on one clone; the claim is about all descendants of a clone under all histories.", "anchors": ["src/res_tracker.cc: ResTracker::DontTrack, Extract", "src/resource.h: Resource::Clone", "src/material.cc: Material::Clone", "src/product.cc: Product::Clone"]}
{"id": "C55", "title": "Approximate equality of compositions", "statement": "compmath::AlmostEq(v, w, t) holds exactly if v and w list the same nuclides and their quantities are within a relative tolerance t of each other; so it is reflexive and symmetric, and with t = 0 it is equality.", "quantifier": "for every pair of composition vectors and every non-negative threshold", "why_tests_cant": "Symmetry and the meaning of threshold 0 range over all vectors; tests check a few literals.", "anchors": ["src/comp_math.cc: AlmostEq"]}
{"id": "C56", "title": "The Resources table shows current quantities", "statement": "For every tracked resource the row of its current state id exists, has its object id, and shows its current quantity unless at most eps_rsrc() of it is left.", "quantifier": "for every sequence of create, extract, absorb, package and modify calls on tracked resources", "why_tests_cant": "The row is written by several different tracker calls whose order and id bumps must fit together in every history; tests look at single calls.", "anchors": ["src/res_tracker.cc: ResTracker::Extract, Absorb, Package, Modify, Record", "src/product.cc: Product::PackageExtract", "src/material.cc: Material::PackageExtract"]}
{"id": "C57", "title": "The greedy solver ends without an exception", "statement": "If no limited capacity mixes zero and positive unit capacities within a group and one ulp at every reachable capacity is at most eps(), GreedySolver::SolveGraph returns normally: the ValueError of GreedySolver::UpdateCapacity for negative remaining capacity is never thrown.", "quantifier": "for every consistent exchange graph, conditioner, and setting of exclusive orders", "why_tests_cant": "Whether a capacity can go negative depends on the whole sequence of matches over all graphs.", "anchors": ["src/greedy_solver.cc: GreedySolver::UpdateCapacity, GreedySolver::GreedilySatisfySet"]}
{"id": "C58", "title": "Pseudo cost above every real cost", "statement": "The pseudo cost that SolveGraph charges for unmet demand is larger than the unit cost of every arc that can be matched, so leaving demand unmet is never cheaper than meeting it.", "quantifier": "for every exchange graph with positive preferences and non-negative unit capacities", "why_tests_cant": "It is a bound over all arcs of all graphs; tests compute the pseudo cost of two small graphs.", "anchors": ["src/exchange_solver.cc: ExchangeSolver::PseudoCost, PseudoCostByCap, PseudoCostByPref, ArcCost"]}
{"id": "C59", "title": "The greedy solution is maximal", "statement": "After a normal return no non-exclusive arc could carry more than eps() additional quantity within the unmet demand of its request group, the quantities of its nodes and the group capacities.", "quantifier": "for every consistent exchange graph with uniform unit capacities and every conditioner", "why_tests_cant": "Maximality quantifies over all arcs and all additional flows in all graphs.", "anchors": ["src/greedy_solver.cc: GreedySolver::GreedilySatisfySet, GreedySolver::Capacity"]}
{"id": "C60", "title": "Preferences are honoured", "statement": "If a request node receives material over a non-exclusive arc, then every non-exclusive arc of the same node with a higher preference has no room left for more than eps().", "quantifier": "for every consistent exchange graph with uniform unit capacities and every conditioner", "why_tests_cant": "It relates all pairs of arcs of all graphs to the final remaining capacities.", "anchors": ["src/greedy_solver.cc: GreedySolver::GreedilySatisfySet, ReqPrefComp"]}
{"id": "C61", "title": "The translated exchange graph is consistent and faithful to the portfolios", "statement": "The graph built by Translate meets the consistency conditions the greedy solver needs; its request groups hold exactly the requests of each request portfolio with the portfolio's quantity and capacities, its supply groups exactly the bids of each bid portfolio with their capacities, and the unit capacity of every constraint on an arc is the conversion of the bid's offer divided by the offer's quantity.", "quantifier": "for every exchange context and preference assignment that translates without error", "why_tests_cant": "Graphs of every size and shape are covered, and consistency is an invariant over all translation steps.", "anchors": ["src/exchange_translator.h: TranslateRequestPortfolio, TranslateBidPortfolio, TranslateArc, TranslateCapacities"]}
{"id": "C62", "title": "Trades resulting from an exchange respect quantities and constraints", "statement": "The trades obtained by translating an exchange, solving it greedily and translating back supply each request portfolio with at most its quantity, take from each bid portfolio at most what its constraints allow, and never take more than a bid offers; the constraints attached to a request portfolio hold as well.", "quantifier": "for every valid exchange context and every conditioner", "why_tests_cant": "It is an end-to-end bound over all exchanges, through three modules.", "anchors": ["src/exchange_translator.h", "src/greedy_solver.cc", "src/exchange_manager.h: ExchangeManager::Execute"]}
{"id": "C63", "title": "The exchange collects every request and bid exactly once in a reproducible order", "statement": "The exchange holds the request portfolios of all traders, traders taken once each in order of their manager's id, and the bid portfolios with which they answer; each bidder is shown, per commodity, exactly the requests for that commodity; bids are indexed under their requests; the order does not depend on memory addresses when managers have one trader each.", "quantifier": "for every set of traders and everything they may request and bid", "why_tests_cant": "Traders, portfolios and address layouts are unbounded; tests run with one address layout.", "anchors": ["src/resource_exchange.h: ResourceExchange::AddAllRequests, AddAllBids, InitTraders, trader_compare", "src/exchange_context.h: ExchangeContext::AddRequestPortfolio, AddBidPortfolio"]}
{"id": "C64", "title": "Preferences are adjusted by the requester and then by all of its ancestors, once each", "statement": "Each requester's preferences start as the bid's own preference or, if it has none, the request's preference, and are then adjusted by the requester, its manager's parent, and every further ancestor in that order, each exactly once; adjustments by one requester's line never touch another requester's preferences.", "quantifier": "for every agent tree, every adjustment function and every exchange", "why_tests_cant": "Adjustment functions and ancestor chains are arbitrary.", "anchors": ["src/resource_exchange.h: ResourceExchange::AdjustAll, AdjustPrefs_", "src/exchange_context.h: ExchangeContext::AddBid"]}
{"id": "C65", "title": "Snapshots are taken when asked for", "statement": "At the beginning of each step, before anything else, a snapshot is made if and only if one was requested since the last one, and exactly one is made after the last step.", "quantifier": "for every simulation and every pattern of snapshot requests", "why_tests_cant": "Requests may be made by any agent in any phase of any step.", "anchors": ["src/timer.cc: Timer::RunSim", "src/timer.h: Timer::Snapshot"]}
{"id": "C66", "title": "The listener containers agree", "statement": "The union of the vectors of Python and C++ listeners is the set of registered listeners in the map tickers_, each listener being in the vector of its kind once for each registration, and the map is sorted by id without repetition.", "quantifier": "for every sequence of registrations and deregistrations, before and during the run", "why_tests_cant": "An invariant between three containers over all histories.", "anchors": ["src/timer.cc: RegisterTimeListener, UnregisterTimeListener", "src/timer.h: tickers_, py_tickers_, cpp_tickers_"]}
{"id": "C67", "title": "Family queries", "statement": "No agent is its own ancestor; AncestorOf, DecendentOf and InFamilyTree terminate, AncestorOf and DecendentOf are converse to each other and hold exactly for proper ancestors, InFamilyTree holds exactly for the agent, its ancestors and its descendants; PrintChildren terminates.", "quantifier": "for every agent tree built by any sequence of valid calls", "why_tests_cant": "Termination and agreement of two recursions over all trees.", "anchors": ["src/agent.cc: AncestorOf, DecendentOf, InFamilyTree, GetTreePrintOuts, PrintChildren"]}
{"id": "C68", "title": "Cumulative cap of the buy policy bounds what it receives in a cycle", "statement": "A MatlBuyPolicy with a cumulative cap receives at most the cap between two dormant periods, and becomes dormant for the sampled number of steps as soon as less than eps of the cap is left.", "quantifier": "for every sequence of steps, orders, deliveries and changes of the buffer by its owner", "why_tests_cant": "The count is spread over many steps; tests drive a few fixed cycles on one kind of buffer.", "anchors": ["src/toolkit/matl_buy_policy.cc: MatlBuyPolicy::AcceptMatlTrades/SetNextDormantTime", "src/toolkit/res_buf.h: ResBuf::Push"]}
{"id": "C69", "title": "Dormant periods of the buy policy follow the sampled lengths", "statement": "A MatlBuyPolicy alternates between active and dormant periods of the sampled lengths, starting with an active period when it is initialised, and asks for nothing while dormant.", "quantifier": "for every sequence of samples with active lengths of at least 1 and dormant lengths of at least 0, and every time", "why_tests_cant": "Periods follow from random samples and extend over unbounded time; tests check fixed lengths for some steps.", "anchors": ["src/toolkit/matl_buy_policy.cc: init_active_dormant/SetNextActiveTime/SetNextDormantTime/CheckActiveDormantCumulativeTimes/ResetBehavior"]}
{"id": "C70", "title": "Bids of the sell policy stay within buffer, throughput, request and package limits", "statement": "A MatlSellPolicy bids only if at least eps is available; its capacity constraint is at most the content of the buffer and the throughput; the bids on a request add up to no more than the request and the capacity, each bid is one quantum or one package, and their number is one that the transport unit admits. A policy with a quantum accepts only packages that one quantum fills.", "quantifier": "for every policy, package, transport unit, buffer content, list of requests and stream of random samples", "why_tests_cant": "Tests cover a few fixed packages and requests; the claim is about all combinations of limits and samples.", "anchors": ["src/toolkit/matl_sell_policy.cc: MatlSellPolicy::GetMatlBids/Limit/SetPackage"]}
{"id": "C71", "title": "Sell policy sends no more packages than its transport unit admits", "statement": "In one time step a MatlSellPolicy sends no more packages than its transport unit admits for the number of trades.", "quantifier": "for every buffer state, package, transport unit and list of trades", "why_tests_cant": "All combinations of trades, packages and transport units; tests use a few.", "anchors": ["src/toolkit/matl_sell_policy.cc: MatlSellPolicy::GetMatlTrades"]}
{"id": "C72", "title": "The function factory builds the function its parameters describe", "statement": "BasicFunctionFactory returns the linear or exponential function with the given coefficients, and rejects unknown names and parameter strings without enough numbers.", "quantifier": "for every name and every list of parameters", "why_tests_cant": "Tests use complete parameter strings; what a missing or malformed parameter yields depends on memory.", "anchors": ["src/toolkit/symbolic_function_factories.cc: LinFunctionFactory/ExpFunctionFactory/BasicFunctionFactory::GetFunctionPtr"]}
{"id": "C73", "title": "Commodity producers keep the information they are given", "statement": "SetCapacity, SetCost, Add and Rm change exactly the entry of the named commodity, Copy transfers all entries of the source, and queries change nothing.", "quantifier": "for every producer, commodity and value", "why_tests_cant": "Tests query commodities that were added; the map creates entries for others.", "anchors": ["src/toolkit/commodity_producer.h", "src/toolkit/commodity_producer.cc: CommodityProducer::Copy"]}
{"id": "C74", "title": "The supply and demand manager evaluates the registered demand", "statement": "After RegisterCommodity, Demand is the value of the registered function and ManagesCommodity holds for exactly the registered commodities.", "quantifier": "for every manager, commodity, function and time", "why_tests_cant": "Tests ask for registered commodities; the map creates entries for others.", "anchors": ["src/toolkit/supply_demand_manager.h"]}
{"id": "C75", "title": "Registering tables adds to what is stored and is answered", "statement": "A register_tables request makes the memory backend store the named tables besides those it stored before, a deregister_tables request makes it store all but the named ones, the cached tables that are still stored stay, and a registry message follows each; a registry_request is answered by the sorted names of the registered tables.", "quantifier": "for every state of the backend and every set of names", "why_tests_cant": "All states and requests; tests do not run the server.", "anchors": ["cyclus/actions.py: send_registry, register_tables, deregister_tables (93-126)", "cyclus/memback.pyx: registry", "cyclus/server.py: documentation of the events (92-112)"]}
{"id": "C76", "title": "Decay of a composition depends only on its origin and the total time", "statement": "Composition::Decay returns what the composition it was created as becomes after the total time, whatever was decayed before and in however many calls; two results with the same origin and total time are one composition with one id, all others are different; compositions never change; nuclides that do not decay are kept.", "quantifier": "for every history of creations and decays, every decay solver that is additive in time, every length of time steps and all compositions", "why_tests_cant": "The cache of results is shared by all compositions of a line; only all histories show that no entry is ever wrong.", "anchors": ["src/composition.cc: Composition::Decay, NewDecay, constructors (67-85, 105-163)", "src/composition.h (67-107)"]}
{"id": "C77", "title": "Materials decay for exactly the time that passes", "statement": "At every time the composition of a material is its initial one decayed for the time from its creation to prev_decay_time(), and after Decay() either that is the current time or the change since is below 0.1% for every nuclide and is caught up later; splitting and combining materials does not lose or add decay time; with decay mode \"never\" nothing changes.", "quantifier": "for every history of time steps, decays and accesses, every mode and all materials", "why_tests_cant": "Time is lost or counted twice only in particular histories of skipped decays, accesses and combinations.", "anchors": ["src/material.cc: Material::Decay, Transmute, comp, ExtractComp, Absorb (68-141, 186-275)", "src/material.h (127-154)"]}
{"id": "C78", "title": "Compositions are recorded once, as mass fractions", "statement": "However often compositions are recorded, the Compositions table has the rows of each recorded composition exactly once: one row for each nuclide, with mass fractions that sum to 1.", "quantifier": "for every sequence of recordings and every composition", "why_tests_cant": "All sequences and compositions.", "anchors": ["src/composition.cc: Composition::Record (87-103)"]}
{"id": "C79", "title": "Explicit inventory tables show what agents hold", "statement": "With explicit_inventory the ExplicitInventory table gets, at every time step and for every inventory of every agent in the simulation, one row per nuclide with its mass, which sum to the quantity held; with explicit_inventory_compact one row with the quantity and the mass fractions; writing them changes no resource.", "quantifier": "for every set of agents, inventories, materials and compositions, in every order", "why_tests_cant": "Rows are computed by combining clones of all objects; mass balance for all inventories cannot be sampled.", "anchors": ["src/timer.cc: Timer::DoTock, RecordInventories, RecordInventory (101-122, 132-179)", "src/material.cc: Clone, Absorb"]}
{"id": "C80", "title": "Material queries agree with the composition and with extraction", "statement": "MatQuery gives mass fractions, masses, atom fractions and moles of a nuclide, and fractions of sets of nuclides, that follow from the composition and quantity; all fractions sum to 1 and all masses to the quantity; Amount(c) is the largest quantity of composition c that the material contains, and extracting it succeeds.", "quantifier": "for every material, composition, nuclide and set of nuclides", "why_tests_cant": "Largest means no larger quantity exists, over all compositions.", "anchors": ["src/toolkit/mat_query.cc (9-155)", "src/material.cc: Material::ExtractComp (68-108)"]}
{"id": "C81", "title": "Uranium assays and the quantity of uranium", "statement": "UraniumAssayAtom and UraniumAssayMass give the fraction of U-235 in U-235 and U-238 by atoms and by mass, between 0 and 1 and 0 without uranium, and each determines the other; UraniumQty is the mass of uranium.", "quantifier": "for every material and all atomic masses", "why_tests_cant": "All compositions, with other nuclides present or not.", "anchors": ["src/toolkit/enrichment.cc (36-82)"]}
{"id": "C82", "title": "A resource map knows its quantity and survives restarts", "statement": "ResMap::quantity() is the sum of the quantities of the resources in the map; assignment, Pop and erase affect one key only; writing the object ids and giving back the restored resources puts each under its key.", "quantifier": "for every history of operations on the map and its resources, and every order of the restored resources", "why_tests_cant": "The sum is cached; histories after which the cache is wrong are particular.", "anchors": ["src/toolkit/res_map.h"]}
{"id": "C83", "title": "Discovery finds exactly the archetypes a library exports", "statement": "DiscoverArchetypes finds exactly the names that follow the word Construct in the text of a library; DiscoverSpecsInDir looks at exactly the libraries in a directory, recursively.", "quantifier": "for every text and every directory tree", "why_tests_cant": "All texts, with the word at any place.", "anchors": ["src/discovery.cc: DiscoverArchetypes, DiscoverSpecsInDir (23-46, 80-128)"]}
{"id": "C84", "title": "Modules and data files are taken from the first place that has them", "statement": "CYCLUS_PATH is split at its delimiters; a module is taken from the first of its directories, the install path and the build path that has it; a data file from its variable, the install path or the build path; and an IOError is thrown exactly if nothing is found.", "quantifier": "for every value of the environment, every file system and every name", "why_tests_cant": "All file systems and environments.", "anchors": ["src/env.cc.in: Env::cyclus_path, FindModule, paths of data files (98-162, 179-200)"]}
{"id": "C85", "title": "Positions keep coordinates and give great-circle distances", "statement": "A Position accepts exactly latitudes from -90 to 90 and longitudes from -180 to 180 and is unchanged otherwise; coordinates read back within a tenth of a second, within range, and can be set again without change; Distance is the length of the arc on a sphere of radius 6372.8 km, symmetric, 0 to itself and with the triangle inequality.", "quantifier": "for all coordinates and all triples of positions", "why_tests_cant": "All coordinates, including the poles and the date line, and all triples of positions.", "anchors": ["src/toolkit/position.cc (12-82, 106-111)"]}
{"id": "C86", "title": "Positions are written as ISO 6709 degrees, minutes and seconds", "statement": "ToString(DEGREES_MINUTES_SECONDS) writes sign, degrees, minutes and seconds whose value is the stored coordinate, each with its fixed number of digits and minutes and seconds below 60.", "quantifier": "for every coordinate that can be stored", "why_tests_cant": "Rounding and padding fail only at particular coordinates out of millions.", "anchors": ["src/toolkit/position.cc: ToString and helpers (84-104, 113-198)", "src/toolkit/position.h (100-118)"]}
{"id": "C87", "title": "A Source offers and supplies at most its capacity", "statement": "A Source bids on every request for its commodity and on no other, offering the smaller of the request and its capacity with its recipe (or the composition asked for) under one constraint of its capacity; trades within the capacity are answered with exactly their quantities and that composition, trades beyond it throw.", "quantifier": "for every source, all requests, trades and recipes", "why_tests_cant": "All sets of requests and trades.", "anchors": ["agents/source.cc (32-105)", "agents/source.h (39-62)", "src/bid_portfolio.h: AddBid (56-70)"]}
{"id": "C88", "title": "Sinks and KFacilities request what they can accept and keep what they get", "statement": "A Sink requests its capacity of each of its commodities, and receives no more than that and no more than its inventory holds in a time step; a KFacility requests and offers amounts that follow a power law and supplies at most its capacity in a time step, in however many calls; all that is received enters the inventory.", "quantifier": "for every number of time steps, all capacities, factors, trades and inventories", "why_tests_cant": "All numbers of steps and sequences of calls; the inventory is full only in particular histories.", "anchors": ["agents/sink.cc (14-93)", "agents/sink.h (57-117)", "agents/k_facility.cc (41-212)", "src/toolkit/res_buf.h: Push (272-297)"]}
{"id": "C89", "title": "Predators and prey live, hunt, give birth and die as documented", "statement": "Prey offers one unit of itself, is dead exactly if some of it was eaten, and has children every birth_freq steps; a predator hunts every hunt_freq steps, drops the documented share of bids, has children exactly when full, and dies at its lifespan; nobody gives birth when dying unless birth_and_death.", "quantifier": "for every life of any length, all meals, parameters and populations", "why_tests_cant": "All histories of meals and all parameters.", "anchors": ["agents/predator.cc (19-115)", "agents/prey.cc (33-114)"]}
{"id": "C90", "title": "LMatrix computes sums, products and powers of matrices", "statement": "An LMatrix of n rows and m columns stands for a matrix: elements are read and written at their place, A + B, A - B, k * A, A * B and A ^ k are the sum, difference, multiple, product and power, identity(n) is the identity, AddRow appends a row, and operands whose sizes do not fit leave A unchanged.", "quantifier": "for all sizes, all elements of a commutative ring and all exponents", "why_tests_cant": "All sizes; products of matrices that are not square do not occur in the decay calculation.", "anchors": ["src/l_matrix.cc (42-292)", "src/l_matrix.h"]}
{"id": "C91", "title": "UniformTaylor solves dx/dt = A x to the requested accuracy", "statement": "MatrixExpSolver(A, x0, t) terminates; it throws a ValueError if the sizes differ or an exponential is out of range, else it returns a vector that differs from the solution x(t) of dx/dt = A x, x(0) = x0 by at most 0.001 of the sum of |x0|; for decays no amount is negative or above the exact one and the total is kept up to 0.001.", "quantifier": "for all n, all real matrices and vectors, all t >= 0, every range of long double", "why_tests_cant": "The error bound concerns an infinite series for all matrices and times.", "anchors": ["src/uniform_taylor.cc (12-154)", "src/uniform_taylor.h (16-60)"]}
{"id": "C92", "title": "Decayer tracks the decay chains and solves the decay equations", "statement": "The tracked nuclides are those of the compositions and the ones they decay into, each with its own column; the matrix is the decay matrix of the tracked nuclides; Decay followed by GetResult yields the solution of the decay equations to 0.001 of the total; instances do not affect each other.", "quantifier": "for every sequence of constructed compositions, all decay data, times and loop orders", "why_tests_cant": "All decay chains, including shared and cyclic ones, and all histories of the static tables.", "anchors": ["src/decayer.cc (13-160)", "src/decayer.h (20-88)"]}
{"id": "C93", "title": "The random numbers keep their documented ranges and depend on the seed alone", "statement": "Truncated normal samples are the first variate between the limits, uniform, binomial and other samples lie in the documented ranges and never exceed max(), constructors reject invalid parameters, and after Initialize every sequence of draws is determined by the seed.", "quantifier": "for all parameters, limits, seeds, sequences of draws and every engine that keeps the promises of Boost", "why_tests_cant": "Samples are random; termination and ranges concern all states of the engine and all parameters.", "anchors": ["src/random_number_generator.h (56-360)", "src/random_number_generator.cc (14-80)", "src/context.cc (327-351)"]}
{"id": "C94", "title": "The registries answer what was registered, and a restart restores them", "statement": "After any sequence of uses of the context, a recipe is the last one added under the name, a package or transport unit the first valid one, a prototype the last overwriting one or else the first; other names and invalid types raise KeyError or ValueError and change nothing; AgentVersions has one row per archetype; loading the recorded tables restores all registries.", "quantifier": "for all sequences of uses of the registries, all names, limits and strategies", "why_tests_cant": "All histories of additions and lookups, including failed ones, followed by a restart.", "anchors": ["src/context.cc (160-270)", "src/package.cc (7-60, 116-170)", "src/sim_init.cc (177-240, 350-376)", "src/xml_file_loader.cc (323-361)"]}
{"id": "C95", "title": "The general information about a simulation survives recording, loading and restarts", "statement": "The first simulation has the duration, start, seed, tolerances and other values of the input file or their defaults; loading what was recorded gives the same information; after any chain of restarts context, timer and rows hold the information of the first simulation with the parent and the time step of the last restart.", "quantifier": "for all values of the control parameters, all texts of numbers with white space, and all chains of restarts", "why_tests_cant": "All values of 64 bit numbers and arbitrarily long chains of restarts in new processes.", "anchors": ["src/context.cc (21-83, 273-321)", "src/context.h (45-132)", "src/timer.cc (268-281)", "src/sim_init.cc (25-47, 148-176)", "src/xml_file_loader.cc (450-496)"]}
{"id": "C96", "title": "Queries of the input file return what the file says", "statement": "A query yields exactly the nodes on its path in document order; GetString returns the text of the match with the index and throws exactly the documented errors otherwise; numbers and truth values are read exactly; optional parameters take the default exactly if the file has none; a recipe has the nuclides and amounts of the file.", "quantifier": "for all documents, paths, indices, texts and defaults", "why_tests_cant": "All documents with any mixture of elements, text and comments, all indices including negative ones, and all numerals.", "anchors": ["src/infile_tree.cc (22-146)", "src/infile_tree.h (76-176)", "src/xml_file_loader.cc (130-158)"]}
{"id": "C97", "title": "The XML made from JSON input says the same", "statement": "JsonToXml writes, for every JSON object, the text of exactly the elements that its members stand for: an element for each member, or one for each item of an array, nested as the objects are, with texts escaped and numbers kept.", "quantifier": "for all JSON values of any depth and width, all texts and numbers", "why_tests_cant": "Values nest without bound, arrays may mix kinds of items, and every text and number can occur.", "anchors": ["src/toolkit/infile_converters.cc (15-101)"]}
{"id": "C98", "title": "The JSON made from XML input says the same, and converting back gives the same elements", "statement": "XmlToJson gives for every document an object in which a text is a string, an empty element null, an element with elements an object, and siblings with the same name an array in document order; it fails for no well-formed document; JsonToXml of the result gives the elements of the document.", "quantifier": "for all documents of any depth and width", "why_tests_cant": "All trees with any mixture of elements, text and comments and any pattern of repeated names.", "anchors": ["src/toolkit/infile_converters.cc (103-162)", "src/infile_tree.cc (62-97)"]}
{"id": "C99", "title": "Every archetype of the input file is in the master schema and found under its alias", "statement": "ParseSpecs returns the archetypes that the input file lists, each once and in order; the master schema is the template in which the hole of each kind is replaced by one element for each archetype of the kind, named by its alias; under every alias of the file the loader finds the archetype it was given to.", "quantifier": "for all documents, templates with holes, archetypes, kinds and schemas", "why_tests_cant": "Any number of archetypes in any order with any mixture of kinds, libraries and aliases, and all templates.", "anchors": ["src/xml_file_loader.cc (30-127, 363-368)", "src/xml_flat_loader.cc (14-45)", "src/dynamic_module.cc (34-39, 66-68)", "share/cyclus.rng.in"]}
{"id": "C100", "title": "The initial agents are exactly those that the input file lists", "statement": "The loader defines one prototype for each facility, institution and region of the input file, made from the archetype that its configuration names; it builds each region, each institution under its region, and as many facilities of each listed prototype under the institution as the file says; each agent has the state of its prototype; names in use and unknown prototypes are refused.", "quantifier": "for all documents, archetypes, numbers and states of agents", "why_tests_cant": "Any nesting of any number of regions, institutions and entries, all numbers, and all archetypes.", "anchors": ["src/xml_file_loader.cc (370-448)", "src/context.h (194-216)", "src/context.cc (160-170)"]}
{"id": "C101", "title": "Every spelling of a nuclide gives its one identifier", "statement": "For every nuclide the identifier, the numbers in the forms ZZZAAAM, AAAZZZM and ZZZAAA, the names with symbol and mass number in either order, and the form ZZ-LL-AAAM all give the identifier ZZZAAASSSS; the name and the numbers that are written for a nuclide are read back as it; a number is accepted as nuclide only if it gives an identifier with mass number not below the atomic number.", "quantifier": "for all nuclides, elements, states, spellings and int values", "why_tests_cant": "All of the 2^31 numbers and all texts, with forms that overlap.", "anchors": ["src/pyne.cc (2306-2439, 2671-2897, 2940-2978, 3028-3192)", "src/comp_math.cc (73-81)", "src/xml_file_loader.cc (147)"]}
{"id": "C102", "title": "Warnings and log messages appear exactly when they are enabled", "statement": "Of the warnings of each kind the first warn-limit are shown, then one notice, then nothing, whatever the order of the calls; with warn-as-error every warning throws the error of its kind. A log message is written exactly if its level is at most that of the report and its source is not switched off, in a fixed form; -v accepts every level by number and by name, and each switch affects its own source only.", "quantifier": "for all sequences of warnings, limits, levels, sources, texts and settings", "why_tests_cant": "Sequences of warnings are unbounded, and the counters wrap around after 2^32 of them.", "anchors": ["src/error.h (83-143)", "src/error.cc (13-36)", "src/logger.h (35-174)", "src/logger.cc (8-86)", "cli/cyclus.cc (509-530)", "cyclus/lib.pyx (692-739)"]}
{"id": "C103", "title": "The command line runs what is asked for and keeps all its data", "statement": "Options that print something print it and run nothing. With an input file the exit code is 0 exactly if the simulation is loaded, initialised and run without an exception; then the simulation run is that of the file with the schema and format meant, and the output file has exactly the data of the loader and of the simulation. Errors give the exit code 1 with everything recorded before in the output file. With a snapshot db:id:time the simulation of the snapshot is run and all its data are kept; other forms are refused.", "quantifier": "for all options, environments, behaviours of the loader and of simulations, and numbers of recorded data", "why_tests_cant": "What is lost depends on the number of data recorded modulo 10000, and the behaviour of the parts called is arbitrary.", "anchors": ["cli/cyclus.cc (57-545)", "src/sim_init.cc (23-75)", "src/recorder.cc (13-120)"]}
{"id": "C104", "title": "Snapshots and restarts keep the inventories", "statement": "What an agent holds in its inventories when a snapshot is taken is what it holds after a restart from that snapshot, whatever happened before and whatever the simulation did afterwards: under each name the same resources in the same order, each with its quantity, composition (mass fractions) or quality, state id, object id, package and time of the last decay.", "quantifier": "for all histories of creations, extractions, absorptions, transmutations, decays, packagings and snapshots, and all holdings", "why_tests_cant": "Histories are unbounded, and what is read back is the result of rows written at many different times by different calls.", "anchors": ["src/sim_init.cc (124-146, 465-485, 570-652)", "src/material.cc", "src/product.cc", "src/res_tracker.cc", "src/composition.cc (87-103)"]}
{"id": "C105", "title": "The solver the input file asks for solves the exchanges", "statement": "The exchanges of a simulation are solved by the solver that the control section of its input file names (the greedy solver if it names none), with the options given there or their documented defaults: whether exclusive orders are allowed, the time limit in seconds, verbosity, dumps and preconditioner; unknown names are rejected, other simulations in the same database have no influence, and a simulation restarted from the database has the same solver.", "quantifier": "for all input files whose control section follows the schema, all databases and all simulations", "why_tests_cant": "Tests configure a few solvers in fresh databases; input files, earlier contents of the database and chains of restarts are unbounded.", "anchors": ["src/xml_file_loader.cc (233-284)", "src/sim_init.cc (241-348)", "src/greedy_solver.cc", "src/prog_solver.cc"]}
{"id": "C106", "title": "Data written to an SQLite file are read back as written", "statement": "After any number of backends have written any data to the same SQLite file, a query of a title returns the names, the types and the values of all data with this title, exactly and in the order in which they were written; data with a value of an unsupported type are rejected without losing other data.", "quantifier": "for all sequences of backends, calls and data of all supported types, and all values", "why_tests_cant": "Tests write one or two values of some types with one backend; values, titles, calls and the number of backends on one file are unbounded, and errors show only in later calls.", "anchors": ["src/sqlite_back.cc (48-138, 166-574)", "src/sqlite_db.cc (16-66)", "src/query_backend.h (28-348)"]}
{"id": "C107", "title": "Ticks and tocks in several threads record what one thread records", "statement": "However many threads execute the ticks and tocks of the time listeners and however they take turns, every datum is recorded once and complete, ids are unique, builds and decommissionings are scheduled as if the listeners had been executed one after the other in a fixed order, the threads never block each other, and an exception of a listener ends the simulation as it does outside of parallel regions.", "quantifier": "for all numbers of threads, all calls of the listeners and all interleavings of their accesses to memory", "why_tests_cant": "A test sees a few of the interleavings, usually the harmless ones; their number grows exponentially, and lost data are silent.", "anchors": ["src/timer.cc (83-122, 147-175, 218-252)", "src/context.cc (124-157)", "src/recorder.cc (67-111)", "src/resource.cc", "src/toolkit/timeseries.h (48-67)"]}
{"id": "C108", "title": "Sums of amounts are accurate in floating-point arithmetic whatever the number of terms", "statement": "With rounding to a relative error u after every operation, KahanSum of finite values whose magnitudes stay in range differs from the exact sum by at most u|sum| + (2u + 12nu^2) times the sum of the magnitudes (below 4u relative for amounts that are not negative); the result does not depend on the order of the values; whole numbers are added exactly. The sum of a composition and the quantity of a resource map are such sums.", "quantifier": "for all rounding functions with relative error u, all lists of values, all orders", "why_tests_cant": "The error depends on the rounding of every single operation; tests compare a few sums with a tolerance.", "anchors": ["src/cyc_arithmetic.cc (13-39)", "src/comp_math.cc (36-43)", "src/toolkit/res_map.h (216-233)"]}
{"id": "C109", "title": "Rows written to an HDF5 table are read back as recorded", "statement": "Whatever the calls of Notify, Query returns every recorded row in order, and each value as recorded, for every type of fixed length and every value that does not exceed its shape. The columns of a row are next to each other, and writing one changes nothing before or behind it. Tables() lists all tables and none of the data sets for values of variable length.", "quantifier": "for all types (trees of numbers, texts, vectors, lists, sets, maps and pairs), all shapes, all tables, all histories of calls, all chunk sizes, all contents of fresh memory", "why_tests_cant": "The code is generated for each of some 300 types; the tests write full values of some of them, and fresh memory is often zero.", "anchors": ["src/hdf5_back.cc.in (75-97, 163-250, 336-428, 483-575, 621-658)", "src/hdf5_back_gen.py (651-1050, 1488-1547, 1831-1960, 2158-2345)", "src/datum.h (35-46)"]}
{"id": "C110", "title": "Values of variable length survive in an HDF5 file that is closed and opened again", "statement": "A value for which VLWrite has returned, and all values inside it, are read back by their digests, in the same session and after the file was opened again, whichever variation of its C++ type the column has; each digest is listed once among the keys of its data set.", "quantifier": "for all tables of types, all digest functions without collisions among the values that occur, all nested values, all histories of creating tables, writing, reading and opening again", "why_tests_cant": "The tests write and read one type in one session; the caches depend on the order in which the types of one C++ type are used and on what the file contained before.", "anchors": ["src/hdf5_back.cc.in (11-39, 98-160, 577-616, 660-838)", "src/hdf5_back_gen.py (1216-1228, 1468-1474, 1708-1732, 1748-1800, 2448-2545, 2594-2697)", "src/hdf5_back.h.in (225-245)"]}
{"id": "C111", "title": "The forms in which other codes write nuclides lead back to the nuclide", "statement": "For each of the forms ZZZAAAM, ZZZAAA, CINDER, SZA, MCNP, Serpent, NIST, ALARA, FLUKA and the state ids of ENSDF: writing a nuclide or element in the form and reading the result gives it back, up to what the form cannot express (ZZZAAA, NIST and ALARA have no state, ZZZAAAM and CINDER cut it at 9, Serpent at 1); names mean the element or nuclide they name.", "quantifier": "for all nuclides in all states and all elements, all spellings of the names, all entries of the two tables, all contents of the global map of states", "why_tests_cant": "The tests convert a dozen nuclides in the ground or first state; the failures depend on the combination of mass number, atomic number and state, and on single entries of tables of 142 and 922 lines.", "anchors": ["src/pyne.cc (437-2283, 2440-2605, 2898-2935, 3028-3097, 3194-3753)", "src/pyne.h"]}
{"id": "C112", "title": "JSON text is read as what it means, and what is written is read back", "statement": "Every JSON document (RFC 8259) is read as what it means: numbers, strings with their escapes in UTF-8, arrays in order, and objects in which the last member of a name counts; no other text is read; reading ends on every text. What FastWriter and CustomWriter write is JSON, and reading it gives the value that was written.", "quantifier": "for all texts, all JSON documents, all values of any depth, all styles and widths of CustomWriter, all roundings to doubles", "why_tests_cant": "The tests of the input converters read a few short documents. Texts and values nest without bound, and the failures depend on the 17th digit of a double, on integers beyond 64 bits, on bytes 0, and on malformed texts that are accepted.", "anchors": ["src/pyne.cc (13085-13146, 13239-13935, 14557-14570, 15448-15468, 16091-16318, 16867-17027)", "src/toolkit/infile_converters.cc (86-100, 155-161)"]}
{"id": "C113", "title": "Input that the generated schema admits is read by the generated code, as written", "statement": "For the state variables of a class the preprocessor generates a RELAX NG schema and the function InfileToDb. The schema admits exactly the elements that have the form of the types, with the names the developer gives and leaves of the given data types; each variable has one element, and one with a default may have none. Every input that the schema admits is read without an error, and the values recorded are those that the input says, or the defaults.", "quantifier": "for all lists of state variables, all types of any depth, all names, data types and defaults, all trees of nodes, all libraries of conversions", "why_tests_cant": "Types, names and inputs nest without bound, and the generated C++ differs for each class; tests/cycpp_test.py compares the generated text for some types with text in the test, and neither compiles it nor reads an input with it. The failures need a truth value written as true, a comment inside a leaf, a variable with the name n, or a default with a backslash.", "anchors": ["cli/cycpp.py (138-151, 542-586, 1152-1640, 1642-1824)", "src/infile_tree.h (83-112)", "src/infile_tree.cc (58-143)"]}
{"id": "C114", "title": "The second pass of the preprocessor finds the classes, parents and state variables of a file", "statement": "The second pass goes through the statements of a file and keeps stacks of namespaces and classes, and sets of namespaces used and aliases. The stacks follow the blocks of the file, so that each class head and each state variable is taken in the scope of C++, and are empty at the end. The table has exactly the classes of the file by their full names; a base is found by the lookup of C++; the parents, ancestors and kind of a class are those of the table; the state variables of a class are recorded once each, in their order, with their pragmas, and aliases lead to them.", "quantifier": "for all files as trees of items of any depth, all names, annotations and functions for types, all tables of classes, all class heads of the form given, all bounds on the depth of calls", "why_tests_cant": "Files nest without bound, and the stacks and sets depend on the whole text before a statement; tests/cycpp_test.py passes single statements to single filters, and runs the whole preprocessor on one file of which it only checks that nothing is printed. The failures need equal names in two namespaces, names with leading colons, an alias that begins its own name, or an alias equal to the name of a variable.", "anchors": ["cli/cycpp.py (121-122, 263-386, 481-516, 646-735, 876-901, 903-916, 2297-2303)"]}
{"id": "C115", "title": "The preprocessor turns the type of a state variable into its canonical type", "statement": "Given the namespaces used and the aliases in force, the preprocessor turns the text of a type into a canonical type. The result is made of supported types and of templates that are known or that an alias names. The text of a canonical type, with white space in any place within a template or around a name, gives this type in any environment. A name stands for what its innermost alias names, and without aliases for what it is in the one namespace used that has it; if there is none it is rejected. The result does not depend on a bound on nested calls, and there is a result for all names if there are no aliases.", "quantifier": "for all types, nested without bound, all texts, all sets of namespaces used and of aliases, all bounds on the depth of calls", "why_tests_cant": "Types nest without bound and the result depends on all namespaces and aliases in force; test_canon_type in tests/cycpp_test.py tries six types with no namespace used and no alias. The failures need a namespace or an alias: a qualified name in a namespace used, a class of the same name nearer by, a using declaration with leading colons.", "anchors": ["cli/cycpp.py (96-106, 745-828)", "tests/cycpp_test.py (317-)"]}
{"id": "C116", "title": "The preprocessor cuts the text of a file into its statements and recognises them", "statement": "The preprocessor cuts any text into matches that follow one another, and nothing of a text that ends with a brace or a semicolon is lost. If a text is made of statements, directives, comments and access specifiers with any white space, it is cut exactly where they end. Class heads, namespaces, using directives and declarations, aliases, typedefs, pragmas of state variables and declarations are recognised with their names, and what is none of these is not taken for one. Hence the second pass makes of the text of a file what it makes of the tree of its declarations.", "quantifier": "for all texts; for all trees of declarations, nested without bound, and all ways to write them with any white space, comments and line markers in between", "why_tests_cant": "The texts of a file are unbounded and the cut depends on what is before and after. The tests of cycpp_test.py give single statements to the filters and never try the regular expression that cuts; the one file of the integration test has one layout. The failures need a brace in a literal, an access specifier directly after a brace, or a misspelled pragma, none of which gives a message.", "anchors": ["cli/cycpp.py (82-92, 245-412, 475-500, 681-742, 899-920)", "tests/cycpp_test.py (62-200, 1181-)"]}
{"id": "C117", "title": "The third pass puts the methods in the place of their directives and keeps the rest of the file", "statement": "In the new file each statement of the old one is kept, except that a directive of the preprocessor is replaced by its method, with the head that its place and mode ask for and the body for the class that is around it or that is named, and that a state variable with a shape is followed by the vector of that shape. Outside of its class the name of the method is qualified such that with scopes around it, it is the name of the class. A file without pragmas is unchanged.", "quantifier": "for all texts whose blocks are balanced, nested without bound; for all bodies of methods, tables of classes and shapes; for all texts without pragma", "why_tests_cant": "The tests of cycpp_test.py call the filters on single directives with a stub for the machine; the place of a directive in nested namespaces and classes, the count of braces and the white space around it are unbounded. Where the code is wrong a directive remains in the file, and the C++ compiler passes over an unknown pragma.", "anchors": ["cli/cycpp.py (396-420, 467-482, 518-531, 921-996, 2006-2160)", "stubs/src/stub_facility.h", "tests/cycpp_test.py (1181-)"]}
{"id": "C118", "title": "Line directives make a compiler report lines of the original file", "statement": "The file that the preprocessor writes has the lines of the new file in their order, with one line directive before each block of lines that it shares with the original file. A compiler that reads it reports each shared line with its number in the original file, and lines of code that was made with the numbers that follow the shared line before them, so that the first has the number of the directive in whose place it is. Lines are those of the text, and continued lines are joined as the language says.", "quantifier": "for all original and new files, all lists of matching blocks, all compilers that understand line directives outside of comments", "why_tests_cant": "No test looks at the line directives. The numbers depend on all blocks before a line; they are wrong only for certain layouts of comments or for rare characters, which shows as an error message at the wrong place and not as a failure.", "anchors": ["cli/cycpp.py (82-92, 2315-2327, 2359-2377)", "cmake/UseCyclus.cmake (122)"]}
{"id": "C119", "title": "Agents written in Python read from the input file what the generated C++ reads", "statement": "For the state variables of an agent class written in Python, InfileToDb records for each variable, in order, the value that its element in the input file says, or its default if it has no element. A class that is handled in both languages records the same row in both: the reader of Python gives the value that the generated C++ stores, and meets the errors that the C++ throws.", "quantifier": "for all lists of state variables, all types of any depth, all names, interface types and defaults, all trees of nodes, all libraries of conversions", "why_tests_cant": "Types and inputs nest without bound; the readers are chosen by the tuple of the type at run time, and the agents of the tests (tests/toaster.py, tests/bear_deploy.py) only have texts, numbers and vectors of texts. The failures need a vector of vectors, a map with a container as its value, or the name of a nuclide as a default.", "anchors": ["cyclus/agents.pyx (722-808, 809-914)", "cyclus/lib.pyx (998-1102)", "cyclus/gentypesystem.py (649-750, 1577-1583, 2394-2411)", "cli/cycpp.py (1152-1640)"]}
{"id": "C120", "title": "Agents written in Python keep their state variables through copies and restarts", "statement": "An agent written in Python has exactly the state variables that its class declares or inherits, each starting with its value, its default or the zero of its type, whatever agents were made before. An attribute that is set reads as what was set. A clone has the values of the original. An agent started again from its snapshot has the values of the snapshot, and its own snapshot is the same.", "quantifier": "for all classes with any inheritance, all sequences in which agents of classes are made, all values of all types of any depth", "why_tests_cant": "What an agent has depends on which agents were made before it, over all class hierarchies: the class attribute with the variables is inherited, and the variables are shared and renumbered. The tests make agents of single classes without subclasses.", "anchors": ["cyclus/agents.pyx (66-110, 724-807, 916-942, 985-1008, 1711-1724)", "cyclus/gentypesystem.py (512-646, 767-792, 1730-1930)", "cyclus/lib.pyx (172-189)"]}
{"id": "C121", "title": "Inventories of agents written in Python survive snapshots, copies and restarts", "statement": "A snapshot of an agent written in Python records the resources in each of its inventories and leaves the inventories as they are; an agent started again from it gets them back. A new agent gets the capacities that the annotations of its inventories say. The inventories of a clone have the capacities of the original and are empty. Resources that a sink accepts are in its inventory.", "quantifier": "for all lists of inventories (buffers and maps of any content), all resources, all capacities and annotations", "why_tests_cant": "The loss happens only when a buffer holds something at the time of a snapshot, and it is silent for C++, which gets an empty map in any case; the tests have no agent with a declared inventory, and look only at the transactions of the sink. The claims are about all contents.", "anchors": ["cyclus/agents.pyx (107-113, 764-770, 806-807, 916-966)", "cyclus/gentypesystem.py (1264-1500, 1933-2062)", "cyclus/lib.pyx (1266-1292)", "cyclus/pyagents.py (46-70)", "src/sim_init.cc (123-143)", "src/timer.cc (124-141)"]}
{"id": "C122", "title": "Portfolios of agents written in Python become the C++ portfolios they describe", "statement": "A request portfolio that an agent written in Python returns, in each of the forms that normalize_request_portfolio tests for, becomes a C++ portfolio with exactly the requests it describes: the same order, names, targets, preferences, exclusivity, as alternatives of each other, with the same capacities. A bid portfolio becomes a C++ portfolio with exactly the bids it describes, and a bid that does not say a preference is worth what the requester said, as in C++.", "quantifier": "for all dicts and lists of any size and nesting, all names, resources, preferences and capacities, all traders", "why_tests_cant": "There are no tests of the normalisation: the agents of the tests write one name per commodity, with a resource as value and without preferences. The forms with dicts, lists and several names are never run. The claims are about all portfolios.", "anchors": ["cyclus/lib.pyx (1794-1905)", "cyclus/gentypesystem.py (2163-2217)", "cyclus/agents.pyx (601-680)", "src/request_portfolio.h (116-162)", "src/bid_portfolio.h (56-83)", "src/exchange_context.h (86-95)"]}
{"id": "C123", "title": "Agents written in Python see the preferences and requests as they are", "statement": "Whenever an agent written in Python adjusts preferences, the dict it is given lists each trade of the preference map once and with its present value, and afterwards the map has the values that it returned and otherwise the old ones; so that a trader and its parents act in turn on the preferences. Bidders written in Python are given all requests of each commodity. The commodity of a bid is that of its request.", "quantifier": "for all preference maps, all agents in C++ and Python in any order, all sequences of traders and time steps, all states of the global caches", "why_tests_cant": "The dicts are cached in global variables under the time and the address of the map, so what an agent sees depends on what ran before in the process. Tests run one agent written in Python at a time, in a new process or at other addresses.", "anchors": ["cyclus/agents.pyx (38-66, 138-179, 626-671)", "cyclus/gentypesystem.py (2105-2160, 2230-2305)", "src/exchange_manager.h", "src/trader_management.h", "src/exchange_context.h (24-95)"]}
{"id": "C124", "title": "The post-processor makes marked constructors call those of their bases and changes nothing else", "statement": "After the post-processor, every constructor that was marked in the Cython source calls the constructors of the given bases with its own arguments under their C++ names and is written as a constructor; the declarations of every marked class follow its comment, each in a line; the rest of the file is as Cython wrote it. A file without marks is left as it is.", "quantifier": "for all files with any number of marked constructors and classes, all argument types with nested templates, all base calls and all texts between them", "why_tests_cant": "The script is run on the few files of this repository, which have one argument named ctx in every marked constructor. Other names, numbers of arguments and layouts are never tried, and the result is only seen by the C++ compiler.", "anchors": ["cli/post-process-cython.py", "cmake/UseCython.cmake (233-246)", "cyclus/agents.pyx (58-66)", "cyclus/agents.pxd (17)"]}
{"id": "C125", "title": "Agents written in Python serve their trades and receive what is sent", "statement": "A supplier written in Python is given one object for each of its trades; every trade that it answers becomes one response with the resource that it gave, and if it answers all, every trade of the exchange reaches its requester exactly once. A requester written in Python is given every response. The source written in Python bids for all requests of its commodity within its capacity and serves every trade with exactly its amount; the sink requests at most its capacity and no more than it has room for.", "quantifier": "for all lists of trades, all answers of agents, all states of memory, all capacities and commodities", "why_tests_cant": "The answers go through unchecked casts and pointers into vectors that live only during the call, and repeated trades are merged without notice; the tests use one source and one sink with room for everything.", "anchors": ["cyclus/agents.pyx (682-717, 1690-1706)", "cyclus/gentypesystem.py (2308-2380)", "cyclus/pyagents.py", "src/trade_executor.h", "src/trader_management.h (49-93)"]}
{"id": "C126", "title": "JSON values in Python hold what they are given and behave like lists and dicts", "statement": "Converting a Python value to JSON succeeds exactly if everything in it has a form in JSON, and gives a value that says the same. A JSON array in Python behaves like a list and a JSON object like a dict: reading, assigning and deleting items and slices, append, extend, +=, insert, reverse, index, count, remove, pop, keys, get, setdefault and update do what they do for lists and dicts, and a call that raises an exception changes nothing.", "quantifier": "for all Python values, all JSON values, all indices, slices and keys", "why_tests_cant": "The items of arrays are moved by loops of swaps between C++ values, members come into being when they are looked at, and what is returned may be a pointer into the container; the tests use small documents and the happy paths.", "anchors": ["cyclus/jsoncpp.pyx (34-514)", "src/pyne.cc (14867-15660, 16331-16398)"]}
{"id": "C127", "title": "A mock simulation has the agents that were asked for, in the steps that were asked for", "statement": "Each source and sink added to a mock simulation has its own name and the commodity, recipe, capacity and lifetime last given, or the documented defaults. It enters in the step asked for, once, and if it has a lifetime of n steps it is there in exactly n steps; without one it never leaves. The agent under test is built in step 0 and has the lifetime given.", "quantifier": "for all sequences of calls configuring mock agents, all starts, lifetimes and durations", "why_tests_cant": "MockSim is itself what the tests of archetypes are built on: its configuration goes through text, and the lifetimes depend on which archetype schedules its own decommissioning; its tests use a few agents with small numbers.", "anchors": ["src/mock_sim.cc (36-226)", "src/mock_sim.h (13-152)", "agents/source.h (85-90)", "agents/sink.h (71-76)", "src/context.cc (124-155)", "src/timer.cc (19-82, 181-253)"]}
{"id": "C128", "title": "The mathematical programming solver finds the cheapest admissible matching", "statement": "Run with exact libraries for linear and mixed integer programs, ProgSolver ends normally; the matches it sets are the flows above eps of a flow that respects all supply capacities, node quantities, exclusive arcs and exclusive groups and that costs least among all such flows, where the cost is flow divided by preference plus the pseudo cost of what the request groups miss. It returns that cost. Old matches and those of the greedy run before it do not matter, and its result is at most the objective of the greedy solver.", "quantifier": "for all exchange graphs with positive preferences and any numbers of groups, nodes, arcs and constraints, and all exact libraries", "why_tests_cant": "Optimality is a statement about all other matchings; the tests solve a few graphs with a couple of arcs and compare with numbers worked out by hand.", "anchors": ["src/prog_solver.cc (55-95)", "src/solver_factory.cc (84-92, 122-173)", "src/prog_translator.cc (51-231)", "src/greedy_solver.cc (62-80)", "src/exchange_solver.cc (11-22, 86-97)"]}
{"id": "C129", "title": "Containers for values of any type behave as variables and do not lose memory", "statement": "A boost::spirit::hold_any that has been constructed, copied, assigned (from another container or from a value), exchanged, reset and destroyed in any order always holds the value last put into it: a cast to its type gives that value, a cast to another type is refused. No value is destroyed twice, no memory is freed twice or used after it was freed, no two containers share memory, and when all containers are destroyed all memory has been freed.", "quantifier": "for all programs of these operations on any number of containers, all types with any sizes, and all values", "why_tests_cant": "Every datum and every query condition goes through these containers; whether the value is stored in the pointer itself or behind it depends on the size of its type, and each pair of old and new type takes one of several paths. A leak or a use after destruction gives the right value in a test.", "anchors": ["src/any.hpp (72-412)"]}
{"id": "C130", "title": "Data recorded and queried from Python arrive as they were given", "statement": "When a program in Python makes data with Recorder.new_datum, add_val and record, every backend gets each datum once and in order after the next flush, with the title, field names, types, values and shapes that were given; a call that cannot be carried out raises an exception and nothing of its datum is recorded. A query from Python gives the columns of the table in order and exactly the values of the rows for which the conditions hold; a value read back converts to the value recorded.", "quantifier": "for all sequences of data and flushes, all buffer sizes, all field names given as text or bytes, all values, types and shapes, all tables and all conditions", "why_tests_cant": "Field names are passed to C++ as pointers into Python objects; whether such an object is still alive at the flush depends on the size of the buffer, the length of the name and who else holds it. Memory that was freed usually still has its old content in a test.", "anchors": ["cyclus/lib.pyx (73-169, 192-279)", "src/recorder.cc (58-111)", "src/datum.cc (11-37)", "cyclus/gentypesystem.py (1629-1686)", "src/sqlite_back.cc (207-230)", "src/hdf5_back.cc.in (341, 635)"]}
{"id": "C131", "title": "Indented JSON has one layout and is read back as the value written", "statement": "StyledWriter writes every JSON value in a layout that depends on the value only, not on what the writer was used for before: each member of an object on a line of its own, an array on one line exactly if its items are plain, fewer than 25, and the line is shorter than 74 characters, each level indented by three spaces. The text is JSON and reading it gives the value written; str() of a JSON value in Python is that text, and for a string the string.", "quantifier": "for all values of any depth without comments, all states of the writer, all roundings to doubles", "why_tests_cant": "The writer keeps four members between calls, writes items twice (once to measure the line), and decides by the last character whether a line has been indented; a value of any depth goes through all of them. No test in the repository compares its text.", "anchors": ["src/pyne.cc (16324-16512)", "cyclus/jsoncpp.pyx (248-255, 548-580)"]}
{"id": "C132", "title": "Agents are made from the module their spec names, and modules are closed", "statement": "DynamicModule::Make gives an agent of the constructor that the spec names, in the first library on the search path or else in the Python module, whatever was made, asked or closed before, and an IOError if there is none; Exists is true exactly if Make succeeds; IsPyAgent is true exactly for specs of Python modules; a library is opened once for each spec and stays open while its constructors are in use; after CloseAll none is open; discovery lists exactly the archetypes of a library that exist.", "quantifier": "for all file systems, libraries, Python modules, specs, and sequences of Make, Exists and CloseAll of any length", "why_tests_cant": "Modules are kept in static maps, so the answer may depend on all earlier calls; the tests make one agent of one library, and no test counts open libraries, calls IsPyAgent, or closes twice.", "anchors": ["src/dynamic_module.cc (62-146)", "src/unix_helper_functions.h (13-53)", "src/pyhooks.cc (36-41)", "src/pymodule.pyx (26-58)", "cyclus/lib.pyx (1908-1920)", "src/discovery.cc (48-78)"]}
{"id": "C133", "title": "Agents in Python live as long as their C++ agents and are always the same object", "statement": "Whatever is done with agents, none is deleted twice and no method is called on a Python object that does not live any more; an agent is always given to Python code as the same object, the one its methods are called on; an object is freed after its agent once nobody has it; an agent made in Python is one agent; its annotations are the same whenever they are read.", "quantifier": "for all sequences of any length of making, cloning, initialising, wrapping, forgetting, calling and deleting agents", "why_tests_cant": "Ownership is divided between C++, a cache and the counts of references, and errors show only as use of freed memory in some orders of events; the tests run whole simulations in one order each.", "anchors": ["cyclus/lib.pyx (1243-1263, 1297-1312, 1377-1384, 1905-1935)", "cyclus/agents.pyx (69-77, 92-100, 733-741, 1060-1072)", "src/context.cc (115-122)", "src/agent.cc (59-75)"]}
{"id": "C134", "title": "Running simulations from Python does exactly what the arguments say", "statement": "The command line in Python and SimState do exactly the steps that the arguments ask for (options that print, opening the output by its extension, registering backends, reading, loading with the right schema, initialising, running, flushing, announcing success), in this order and only up to the first that fails; the input that is named is the one that is run; options that print do not change what is run; success is announced only after everything was done; the default output can be opened; the function that closes libraries is registered once.", "quantifier": "for all lists of arguments of any length and order, all texts, all members of a SimState, and all behaviour of the parts that are called", "why_tests_cant": "The tests run a few fixed command lines with one input each; what matters are combinations and orders of options, and which side effects remain when a step fails.", "anchors": ["cyclus/main.py (48-81, 239-250, 307-427)", "cyclus/simstate.py (17-40, 100-196)", "cyclus/lib.pyx (803-821, 932-951)"]}
{"id": "C135", "title": "Input files in Python mean the simulation they define, and the format decides how an input is read", "statement": "An input in Python is run, ended by a line break, and gives exactly the text of the simulation it defines: of simulation, SIMULATION and Simulation the first that is defined, called if it can be called, itself if it is a text, decoded if it is bytes, written in JSON if it is a mapping; everything else is an error. JSON converted to Python is read back. Without a format the extension of a file decides whether it is converted from JSON or Python or taken as XML; with a format the input is the text itself. XMLParser reads a file, or a raw text, in its format.", "quantifier": "for all texts, all programs and values of Python, all files, formats and extensions, and all conversions between JSON and XML", "why_tests_cant": "The tests convert one input to Python and back and run a few fixed files; errors in Python files, callable and other values, texts with unusual characters, and raw texts with formats are not tried.", "anchors": ["src/pyinfile.pyx (18-64)", "src/pyhooks.cc (53-55)", "src/toolkit/infile_converters.cc (164-170)", "src/xml_file_loader.cc (30-61)", "cyclus/lib.pyx (932-951)"]}
{"id": "C136", "title": "Repeating actions are done once in every step, and the interpreter lives from the first start to the exit", "statement": "In every step of a simulation run from Python, the recorder is flushed and then each repeating action is called exactly once, in the order of the list, with its own parameters (none for a plain callable), and its task is put in the queue; without a state nothing happens. A process that uses Python initialises the interpreter once, keeps it until it exits, and finalises it once.", "quantifier": "for all lists of repeating actions of every kind, all parameters and behaviours of actions, all numbers of steps, and all sequences of calls of PyStart and PyStop", "why_tests_cant": "The tests use one or two actions given as pairs, and balanced starts and stops; plain callables, mixtures, unknown names and commands that return early need other lists and sequences.", "anchors": ["cyclus/events.pyx (15-59)", "src/eventhooks.pyx (4-6)", "src/pyhooks.cc (12-34)", "cli/cyclus.cc (60, 228)", "src/mock_sim.cc (217-224)"]}
{"id": "C137", "title": "The environment says once and for all where Cyclus is installed, and values and paths are read without loss", "statement": "The installation is the directory above the one of the program that is found, if it exists, and otherwise the directory fixed at build time without padding; it is decided at the first call and never changes. Schemas are searched in the variable, the installation and the build, and a missing schema is named. Mixed integer programs are switched off exactly by an empty value, f, false or 0 in any case. Lists of paths are split so that nothing is lost; the base of a path is its directory; nuclear data are only ever set to files that exist.", "quantifier": "for all outputs of which, all variables of the environment, all sets of existing files, all directories fixed at build time, and all paths and delimiters", "why_tests_cant": "The tests run in one environment with one installation, and read each value once; other installations, padded directories, missing files and unusual lists are not tried.", "anchors": ["src/env.cc.in (25-80, 120-153, 164-174)", "src/env.h (30-49, 98-107)"]}
{"id": "C138", "title": "Inputs are accepted exactly if the schema accepts them, and validators free what they make", "statement": "After any sequence of schemas and documents, a validator accepts a document exactly if the last text it parsed is a schema that accepts it, and everything else is an error for validation; when it is destroyed, everything it made has been freed exactly once. A parser accepts its input exactly if its text is a document, the files to include can be read, and the result is valid under the schema; otherwise there is an error for validation.", "quantifier": "for all sequences of calls, all texts, all documents and schemas, and all behaviour of the library for XML", "why_tests_cant": "The tests parse one schema and validate one or two documents with each validator; a validator that is used again, errors in between, and what is freed need other sequences.", "anchors": ["src/relax_ng_validator.cc (22-89)", "src/xml_parser.cc (22-86)"]}
{"id": "C139", "title": "The comparison of programs finds exactly the differences", "statement": "The comparison with which translated exchanges are tested gives 0 exactly if the two programs have the same numbers of rows and columns, the same columns are integers, all bounds and coefficients are the same up to the tolerance, and the matrices are equivalent; otherwise its result says what is different. It does not depend on the order, no program differs from itself, names count unless they are to be ignored, and programs that are the same as a third are the same.", "quantifier": "for all programs of any size, all bounds and coefficients, and all comparisons of matrices", "why_tests_cant": "The comparison is itself what a test relies on; it is only ever called with two equal programs, so a comparison that overlooks differences would pass.", "anchors": ["src/coin_helpers.cc (20-121)", "tests/prog_translator_tests.cc (231)"]}
{"id": "C140", "title": "Agents find in their tables exactly what they wrote", "statement": "Whatever other agents and archetypes record, an agent that is read back finds under each title exactly what it recorded at that time, in order: as archetype, as Agent, and for inventories; a prototype finds what it recorded at any time. Different archetypes have different tables, and so have different titles; an agent that is recorded again in the same time step finds its state once; every archetype can record its state.", "quantifier": "for all sequences of records of all agents, archetypes, titles and times, and all agents that read", "why_tests_cant": "The tests restart simulations with a few archetypes with short names; collisions between names of tables need particular paths, names and titles.", "anchors": ["src/db_init.cc (8-21)", "src/query_backend.h (522-582)", "src/sim_init.cc (124-146, 361-373, 420-427, 465-475)", "src/xml_file_loader.cc (391-409)", "src/mock_sim.cc (18-33)", "src/dynamic_module.cc (41-60)"]}
{"id": "C141", "title": "Projects of archetypes keep what they have and build what was added", "statement": "Beginning in a directory without a project, cycstub enters any archetypes of one library one after the other: every command is done, the library builds all of them, their files are what the stubs become, and no other file is touched. Archetypes of another path or library are refused, and a command that is not done changes nothing. No command destroys files that are there, and no archetype is entered twice.", "quantifier": "for all projects, sequences of commands, specifications, types of archetypes and contents of files", "why_tests_cant": "The tests make one project with one archetype of each type; names that meet the files of other archetypes, repeated commands and libraries without a name are not among them.", "anchors": ["cli/cycstub (13-178)", "stubs/CMakeLists.txt (1)", "stubs/src/CMakeLists.txt (1-4)"]}
