{
 "claims": [
  {
   "property": "C01",
   "status": "partial",
   "theorems": [
    "Cyclus.ResBuf.C01_quantity_is_sum_partial",
    "Cyclus.ResBuf.C01_fails_duplicate",
    "Cyclus.ResBuf.C01_fails_mixed"
   ],
   "note": "Holds for every program whose vector pushes list distinct objects (of one quality in a bulk Product buffer). False otherwise: the two _fails theorems give concrete programs."
  },
  {
   "property": "C02",
   "status": "partial",
   "theorems": [
    "Cyclus.ResBuf.C02_capacity_respected_partial",
    "Cyclus.ResBuf.C02_excess_bounded",
    "Cyclus.ResBuf.C02_overflow_rejected",
    "Cyclus.ResBuf.C02_fails",
    "Cyclus.ResBuf.C02_overflow_unbounded"
   ],
   "note": "The excess over capacity is at most eps times the number of calls; the bound of a single eps is false because a full buffer keeps accepting pushes of at most eps."
  },
  {
   "property": "C03",
   "status": "proved",
   "theorems": [
    "Cyclus.ResBuf.C03_pop_oldest",
    "Cyclus.ResBuf.C03_popBack_newest",
    "Cyclus.ResBuf.C03_popN_oldest",
    "Cyclus.ResBuf.C03_popVector_exact",
    "Cyclus.ResBuf.C03_popQty_exact"
   ],
   "note": "For every reachable buffer."
  },
  {
   "property": "C04",
   "status": "partial",
   "theorems": [
    "Cyclus.ResBuf.C04_failed_call_atomic_partial",
    "Cyclus.ResBuf.C04_fails_pop",
    "Cyclus.ResBuf.C04_fails_push"
   ],
   "note": "Failing calls are atomic except those failing inside Product::Absorb on mixed qualities, for which witnesses are given."
  },
  {
   "property": "C05",
   "status": "partial",
   "theorems": [
    "Cyclus.ResBuf.C05_no_duplicates_partial",
    "Cyclus.ResBuf.C05_fails"
   ],
   "note": "A vector that lists one object twice is accepted by Push(vector)."
  },
  {
   "property": "C06",
   "status": "proved",
   "theorems": [
    "Cyclus.Package.C06_fill_masses",
    "Cyclus.Package.C06_deterministic_succeeds",
    "Cyclus.Package.C06_terminates",
    "Cyclus.Package.C06_zero_min_may_loop"
   ],
   "note": "For every accepted package type, quantity and stream of draws. Uniform draws are assumed to lie within the limits (boost). Termination of the random strategies needs fill_min > 0; with fill_min = 0 the loop may go on forever (C06_zero_min_may_loop)."
  },
  {
   "property": "C07",
   "status": "partial",
   "theorems": [
    "Cyclus.TransportUnit.C07_shippable_partial",
    "Cyclus.TransportUnit.C07_hybrid_optimal",
    "Cyclus.TransportUnit.C07_unrestricted",
    "Cyclus.TransportUnit.C07_fails_zero_min"
   ],
   "note": "Holds where the integer arithmetic is defined. With fill_min = 0 (the default of Create) the equal and hybrid strategies divide by zero; with fill_max near INT_MAX they overflow."
  },
  {
   "property": "C08",
   "status": "partial",
   "theorems": [
    "Cyclus.Product.C08_product_conserved",
    "Cyclus.Product.C08_product_calls",
    "Cyclus.Product.C08_fails_self",
    "Cyclus.Material.C08_material_conserved",
    "Cyclus.Material.C08_material_calls",
    "Cyclus.Material.C08_packageExtract_calls",
    "Cyclus.Material.C08_packageExtract_negative",
    "Cyclus.Material.C08_fails_self"
   ],
   "note": "Proved for every program in which no object absorbs itself; absorbing itself destroys the quantity (C08_fails_self). Material::PackageExtract conserves but may leave a remainder of down to -eps (C08_packageExtract_negative)."
  },
  {
   "property": "C09",
   "status": "partial",
   "theorems": [
    "Cyclus.Material.C09_nuclides_conserved_partial",
    "Cyclus.Material.C09_fails_blank",
    "Cyclus.Material.C09_fails_threshold"
   ],
   "note": "Proved for every program of non-negative amounts with threshold 0 and non-empty compositions; an empty composition or the default threshold breaks it."
  },
  {
   "property": "C10",
   "status": "proved",
   "theorems": [
    "Cyclus.Tracker.C10_ids_unique",
    "Cyclus.Tracker.C10_genealogy_wellFounded",
    "Cyclus.Tracker.C10_parents_recorded",
    "Cyclus.Tracker.C10_fails_clone"
   ],
   "note": "Uniqueness and acyclicity hold for every program, also with clones; on tracked resources every parent is an earlier row. With clones (outside the property) a parent may be missing from the table (C10_fails_clone)."
  },
  {
   "property": "C11",
   "status": "partial",
   "theorems": [
    "Cyclus.ChangePackage.C11_product",
    "Cyclus.ChangePackage.C11_material_partial",
    "Cyclus.ChangePackage.C11_fails_material"
   ],
   "note": "Holds for Products; Materials are checked against the limits of the current package instead of the requested one."
  },
  {
   "property": "C12",
   "status": "partial",
   "theorems": [
    "Cyclus.Exchange.C12_capacities_partial",
    "Cyclus.Exchange.C12_fails_request",
    "Cyclus.Exchange.C12_fails_zero"
   ],
   "note": "Supply constraints are kept when no constraint mixes zero and positive unit capacities; a request group keeps only its loosest constraint (counterexample proved) and an exhausted constraint with a zero unit capacity disables all limits (counterexample proved)."
  },
  {
   "property": "C13",
   "status": "partial",
   "theorems": [
    "Cyclus.Exchange.C13_group",
    "Cyclus.Exchange.C13_node_partial",
    "Cyclus.Exchange.C13_positive",
    "Cyclus.Exchange.C13_fails_zero"
   ],
   "note": "Node quantities are kept unless 0/0 occurs in the capacity ratio (counterexample proved)."
  },
  {
   "property": "C14",
   "status": "proved",
   "theorems": [
    "Cyclus.Exchange.C14_exclusive",
    "Cyclus.Exchange.C14_arc_value"
   ],
   "note": ""
  },
  {
   "property": "C15",
   "status": "proved",
   "theorems": [
    "Cyclus.Exchange.C15_objective"
   ],
   "note": ""
  },
  {
   "property": "C16",
   "status": "proved",
   "theorems": [
    "Cyclus.Exchange.C16_condition",
    "Cyclus.Exchange.C16_reverse"
   ],
   "note": ""
  },
  {
   "property": "C17",
   "status": "proved",
   "theorems": [
    "Cyclus.Dre.C17_success",
    "Cyclus.Dre.C17_error",
    "Cyclus.Dre.C17_arcs",
    "Cyclus.Dre.C17_arcs_nodup",
    "Cyclus.Dre.C17_back",
    "Cyclus.Dre.C17_distinct"
   ],
   "note": "Translate succeeds unless a preference is 0 or missing; arcs are exactly the bids with positive preference, once each; back-translation is exact and different arcs give different trades."
  },
  {
   "property": "C18",
   "status": "partial",
   "theorems": [
    "Cyclus.Dre.C18_suppliers",
    "Cyclus.Dre.C18_requesters",
    "Cyclus.Dre.C18_delivered_partial",
    "Cyclus.Dre.C18_rows",
    "Cyclus.Dre.C18_ids",
    "Cyclus.Dre.C18_fails_foreign"
   ],
   "note": "Each supplier asked once for its own trades in order; responses are delivered once provided every response names a requester that takes part in some trade (the code checks nothing: C18_fails_foreign shows a recorded response delivered to nobody); rows and fresh ids proved in general."
  },
  {
   "property": "C19",
   "status": "proved",
   "theorems": [
    "Cyclus.Dre.C19_requester",
    "Cyclus.Dre.C19_add",
    "Cyclus.Dre.C19_qty",
    "Cyclus.Dre.C19_qty_plain"
   ],
   "note": "Exact arithmetic; target quantities do not change while the portfolio is built."
  },
  {
   "property": "C20",
   "status": "partial",
   "theorems": [
    "Cyclus.Dre.C20_equal_partial",
    "Cyclus.Dre.C20_coefficient",
    "Cyclus.Dre.C20_fails"
   ],
   "note": "The documented coefficient average/quantity is inverted in the code (quantity/average): false in the documented example, true for equal quantities."
  },
  {
   "property": "C21",
   "status": "partial",
   "theorems": [
    "Cyclus.Dre.C21_bids",
    "Cyclus.Dre.C21_add",
    "Cyclus.Dre.C21_bidder_partial",
    "Cyclus.Dre.C21_fails_bidder"
   ],
   "note": "A rejected first bid leaves its bidder behind although no bid was added."
  },
  {
   "property": "C22",
   "status": "proved",
   "theorems": [
    "Cyclus.Timing.C22_builds",
    "Cyclus.Timing.C22_accepts",
    "Cyclus.Timing.C22_fails_parent"
   ],
   "note": "Builds at each time are exactly those accepted for it, in order, for the executed steps; C22_fails_parent records that the parent may have been decommissioned before (dangling pointer)."
  },
  {
   "property": "C23",
   "status": "partial",
   "theorems": [
    "Cyclus.Timing.C23_decoms",
    "Cyclus.Timing.C23_once_partial",
    "Cyclus.Timing.C23_accepts",
    "Cyclus.Timing.C23_fails_lost",
    "Cyclus.Timing.C23_fails_twice"
   ],
   "note": "At each step exactly the agents on the agenda at the beginning of the phase are decommissioned; exactly-once holds if no decommissioning is scheduled during the phase and none for decommissioned agents. False otherwise: a request for the current time made during the phase is lost, and an agent rescheduled during it is decommissioned twice."
  },
  {
   "property": "C24",
   "status": "partial",
   "theorems": [
    "Cyclus.Timing.C24_order",
    "Cyclus.Timing.C24_step",
    "Cyclus.Timing.C24_once_partial",
    "Cyclus.Timing.C24_end",
    "Cyclus.Timing.C24_fails_skip",
    "Cyclus.Timing.C24_fails_twice"
   ],
   "note": "Order, contents and end of all steps; exactly one call per listener if nobody changes the registrations during the step and no listener is registered twice. False otherwise (witnesses)."
  },
  {
   "property": "C25",
   "status": "partial",
   "theorems": [
    "Cyclus.Agents.C25_tree",
    "Cyclus.Agents.C25_decommission",
    "Cyclus.Agents.C25_refused",
    "Cyclus.Agents.C25_leak",
    "Cyclus.Agents.C25_fails_subtree",
    "Cyclus.Agents.C25_fails_leak",
    "Cyclus.Agents.C25_fails_rebuild"
   ],
   "note": "The tree stays consistent for all valid sequences, and the exact effect of decommissioning and of deleting the context. False: descendants are not removed with their ancestor (context.h documents that they are), deleting the context leaks every agent that has a parent, building an agent under a second parent leaves a dangling pointer."
  },
  {
   "property": "C26",
   "status": "partial",
   "theorems": [
    "Cyclus.Agents.C26_not_before",
    "Cyclus.Agents.C26_exit",
    "Cyclus.Agents.C26_forever",
    "Cyclus.Agents.C26_fails_zero"
   ],
   "note": "In every simulation in which only institutions ask for decommissionings: no agent leaves before the end of its lifetime, agents with lifetime -1 never leave, and an agent whose parent institution gets the Tock of step e+n-1 (and whose decommission condition holds) leaves exactly then. Lifetimes below 1 (other than -1) act like 1 (C26_fails_zero)."
  },
  {
   "property": "C27",
   "status": "partial",
   "theorems": [
    "Cyclus.Agents.C27_before",
    "Cyclus.Agents.C27_after",
    "Cyclus.Agents.C27_force_partial",
    "Cyclus.Agents.C27_fails_force"
   ],
   "note": "lifetime(n) completely. lifetime_force throws ValueError for every n whose end has passed, so in particular an infinite lifetime (-1) can never be forced."
  },
  {
   "property": "C28",
   "status": "partial",
   "theorems": [
    "Cyclus.Agents.C28_counts",
    "Cyclus.Agents.C28_partial",
    "Cyclus.Agents.C28_fails"
   ],
   "note": "Exact value of both counters after all sequences; equal to the number of agents in the simulation if no institution or region enters. False otherwise: institutions and regions are not counted when they enter but are when they leave."
  },
  {
   "property": "C29",
   "status": "partial",
   "theorems": [
    "Cyclus.Rec.C29_exact",
    "Cyclus.Rec.C29_all",
    "Cyclus.Rec.C29_fails_zero",
    "Cyclus.Rec.C29_fails_dump_count",
    "Cyclus.Rec.C29_fails_dump_count_small",
    "Cyclus.Rec.C29_fails_unrecorded",
    "Cyclus.Rec.C29_fails_interleaved",
    "Cyclus.Rec.C29_fails_flush",
    "Cyclus.Rec.C29_fails_name"
   ],
   "note": "For dump counts of at least 1 and every program that records each datum before the next is made and registers backends before recording, every backend gets exactly the recorded data, once and in order, by the time of Close. The full statement is false: dump count 0, changing the dump count later, unrecorded or interleaved data, flushing between NewDatum and Record, and names given as std::string (C29_fails_*)."
  },
  {
   "property": "C30",
   "status": "partial",
   "theorems": [
    "Cyclus.Rec.C30_sqlite_partial",
    "Cyclus.Rec.C30_hdf5_partial",
    "Cyclus.Rec.C30_injector",
    "Cyclus.Rec.C30_prefix",
    "Cyclus.Rec.C30_getVal",
    "Cyclus.Rec.C30_cond",
    "Cyclus.Rec.C30_fails_empty",
    "Cyclus.Rec.C30_fails_injector",
    "Cyclus.Rec.C30_fails_unknown",
    "Cyclus.Rec.C30_fails_prefix"
   ],
   "note": "SQLite: for every list of conforming data sent to an empty database, every query with NULL or non-empty conditions on existing columns returns exactly the satisfying rows in order. HDF5: for every table and all conditions on existing columns. The full statement is false: an empty condition list is malformed SQL (C30_fails_empty, C30_fails_injector), HDF5 ignores conditions on unknown columns (C30_fails_unknown), PrefixInjector does not prefix ColumnTypes (C30_fails_prefix)."
  },
  {
   "property": "C31",
   "status": "partial",
   "theorems": [
    "Cyclus.VL.C31_distinct",
    "Cyclus.VL.C31_read_partial",
    "Cyclus.VL.C31_string_partial",
    "Cyclus.VL.C31_classified",
    "Cyclus.VL.C31_count",
    "Cyclus.VL.C31_fails",
    "Cyclus.VL.C31_fails_strings",
    "Cyclus.VL.C31_fails_nul",
    "Cyclus.VL.C31_fails_memory"
   ],
   "note": "For every type with at most one variable-length component, at the end, and an injective hash, every written value is found at its digest after any writes; strings without NUL are read back. The full statement is false: C31_classified shows that the overloads of Sha1::Update without collisions are exactly those types, so 22 of 40 collide whatever the hash (C31_fails); NULs cut strings (C31_fails_nul); one overload hashes object memory (C31_fails_memory)."
  },
  {
   "property": "C32",
   "status": "partial",
   "theorems": [
    "Cyclus.Init.C32_agents",
    "Cyclus.Init.C32_counters",
    "Cyclus.Init.C32_schedules_partial",
    "Cyclus.Init.C32_restart_partial",
    "Cyclus.Init.C32_fails_now",
    "Cyclus.Init.C32_fails_later",
    "Cyclus.Init.C32_fails_decom",
    "Cyclus.Init.C32_fails_parent",
    "Cyclus.Init.C32_fails_orphan"
   ],
   "note": "For every database a restart makes exactly the agents alive, parents first (C32_agents), and restores the counters (C32_counters). Schedules of any run of the timer are restored for later builds and for decommissionings if nothing was scheduled after the snapshot (C32_schedules_partial, C32_restart_partial). The full statement is false: builds due at the restart time are lost (C32_fails_now), builds scheduled after the snapshot are restored too (C32_fails_later), requests for agents that are gone or not yet there crash (C32_fails_decom), builds lose a dead parent (C32_fails_parent), orphans make the restart loop forever (C32_fails_orphan)."
  },
  {
   "property": "C33",
   "status": "partial",
   "theorems": [
    "Cyclus.Init.C33_flat_partial",
    "Cyclus.Init.C33_fails_missing",
    "Cyclus.Init.C33_fails_cycle",
    "Cyclus.Init.C33_fails_duplicate"
   ],
   "note": "For distinct names loading ends iff every chain of parents ends at an agent without parent, and then builds every agent once, parents first. The full statement is false: a missing parent gives an endless loop instead of an error (C33_fails_missing), so do cycles (C33_fails_cycle), and an agent listed twice is built once (C33_fails_duplicate)."
  },
  {
   "property": "C34",
   "status": "partial",
   "theorems": [
    "Cyclus.Load.C34_partial",
    "Cyclus.Load.C34_fails",
    "Cyclus.Load.C34_fails_order"
   ],
   "note": "The full statement is false for every input file with commodities: through loader, SQLite backend and initialiser the solver always gets no weights, because the loader writes column SolutionPriority and the initialiser reads SolutionOrder (C34_fails); the weights matter (C34_fails_order). For a table with column SolutionOrder the weights are positive and ordered by priority (C34_partial)."
  },
  {
   "property": "C35",
   "status": "partial",
   "theorems": [
    "Cyclus.Load.C35_partial",
    "Cyclus.Load.C35_fails"
   ],
   "note": "For every non-empty map of commodities, over rational numbers. With no commodity, which the schema allows, the end iterator is dereferenced (C35_fails)."
  },
  {
   "property": "C36",
   "status": "partial",
   "theorems": [
    "Cyclus.Load.C36_roundtrip",
    "Cyclus.Load.C36_str",
    "Cyclus.Load.C36_rejects",
    "Cyclus.Load.C36_read",
    "Cyclus.Load.C36_sanitize_partial",
    "Cyclus.Load.C36_fails_alias",
    "Cyclus.Load.C36_fails_roundtrip",
    "Cyclus.Load.C36_fails_sanitize"
   ],
   "note": "Proved for all strings and specs: printing and parsing, parsing and printing, rejection, defaults of the input file. False: the alias of the four-argument constructor does not default (C36_fails_alias), another alias is lost in the string (C36_fails_roundtrip), distinct specs share table names (C36_fails_sanitize); names without / - : . _ do not (C36_sanitize_partial)."
  },
  {
   "property": "C37",
   "status": "partial",
   "theorems": [
    "Cyclus.MemBack.C37_history_partial",
    "Cyclus.MemBack.C37_history_conds_partial",
    "Cyclus.MemBack.C37_mirror_partial",
    "Cyclus.MemBack.C37_fallback",
    "Cyclus.MemBack.C37_drop_partial",
    "Cyclus.MemBack.C37_fails_stale",
    "Cyclus.MemBack.C37_fails_late",
    "Cyclus.MemBack.C37_fails_fields",
    "Cyclus.MemBack.C37_fails_lost"
   ],
   "note": "Refinement of an ideal backend for all histories without a restriction of a store-all registry and with uniform fields, and agreement with a fallback that has everything. False: True followed by a set leaves stale tables, a table registered late is answered from its later rows only, data with fields in another order are stored under the wrong columns, a short datum loses its table and all later ones of the batch."
  },
  {
   "property": "C38",
   "status": "partial",
   "theorems": [
    "Cyclus.MemBack.C38_conjunction_partial",
    "Cyclus.MemBack.C38_raises",
    "Cyclus.MemBack.C38_shared_partial",
    "Cyclus.MemBack.C38_bound",
    "Cyclus.MemBack.C38_hit",
    "Cyclus.MemBack.C38_fails_empty",
    "Cyclus.MemBack.C38_fails_val",
    "Cyclus.MemBack.C38_fails_shared",
    "Cyclus.MemBack.C38_fails_collision"
   ],
   "note": "The conjunction after all histories of queries with plain field names, injective keys for these, and the bound of the cache for all histories whatever. False: no conditions raise an error, a field called val1 is overwritten by a value, and fields with operators in them make different conditions share code."
  },
  {
   "property": "C39",
   "status": "partial",
   "theorems": [
    "Cyclus.Server.C39_resumes_partial",
    "Cyclus.Server.C39_not_stuck_partial",
    "Cyclus.Server.C39_holds",
    "Cyclus.Server.C39_fails_overtake",
    "Cyclus.Server.C39_fails_queued",
    "Cyclus.Server.C39_fails_double",
    "Cyclus.Server.C39_fails_shutdown"
   ],
   "note": "All interleavings of consumer, tasks and monitor: for a client that asks for a pause only when none is pending or in effect and for the last unpause only when none is pending, the server comes to rest after finitely many steps and the simulation goes on. False otherwise: an unpause may overtake its pause, a second pause stays queued or replaces the first, a shutdown blocks the unpause behind it."
  },
  {
   "property": "C40",
   "status": "partial",
   "theorems": [
    "Cyclus.Cycpp.C40_total",
    "Cyclus.Cycpp.C40_roundtrip_partial",
    "Cyclus.Cycpp.C40_roundtrip_general",
    "Cyclus.Cycpp.C40_split",
    "Cyclus.Cycpp.C40_join_partial",
    "Cyclus.Cycpp.C40_fails_buffer",
    "Cyclus.Cycpp.C40_fails_nested",
    "Cyclus.Cycpp.C40_fails_blank",
    "Cyclus.Cycpp.C40_fails_tail",
    "Cyclus.Cycpp.C40_fails_typedef"
   ],
   "note": "Round trip for types of any depth without buffer templates, and the exact parts of outter_split for every string. False for ResBuf<T>: PRIMITIVES is extended in place, so type_to_str returns a tuple, and raises inside a container. outter_split drops white space and an unbalanced tail, and cuts template arguments apart in typedefs."
  },
  {
   "property": "C41",
   "status": "partial",
   "theorems": [
    "Cyclus.Cycpp.C41_partial",
    "Cyclus.Cycpp.C41_fails_short"
   ],
   "note": "Proved without a shape and for full and too long shapes. False for every short shape: the result is None."
  },
  {
   "property": "C42",
   "status": "partial",
   "theorems": [
    "Cyclus.Cycpp.C42_partial",
    "Cyclus.Cycpp.C42_fails",
    "Cyclus.Cycpp.C42_text"
   ],
   "note": "Exactly the UUIDs written correctly are characterised: digit i must equal digit 2i for every byte i. False in general: zip(hex[::1], hex[1::2]) pairs the wrong digits."
  },
  {
   "property": "C43",
   "status": "partial",
   "theorems": [
    "Cyclus.Cycpp.C43_generated_partial",
    "Cyclus.Cycpp.C43_restore_partial",
    "Cyclus.Cycpp.C43_shapes_partial",
    "Cyclus.Cycpp.C43_fails_resmap",
    "Cyclus.Cycpp.C43_fails_tracker",
    "Cyclus.Cycpp.C43_fails_container",
    "Cyclus.Cycpp.C43_fails_alias",
    "Cyclus.Cycpp.C43_fails_clash",
    "Cyclus.Cycpp.C43_fails_shape",
    "Cyclus.Cycpp.C43_fails_capacity"
   ],
   "note": "Generated statements and their effect for all lists of plain and ResBuf variables. False for ResMap (saved twice, resources not restored), TotalInvTracker (not saved), containers of buffers, an alias equal to a variable name (no code for the variable), short shapes (undeclared shape variable) and capacities changed at run time."
  },
  {
   "property": "C44",
   "status": "partial",
   "theorems": [
    "Cyclus.Cycpp.C44_ancestors",
    "Cyclus.Cycpp.C44_intersection",
    "Cyclus.Cycpp.C44_cycle",
    "Cyclus.Cycpp.C44_fails_doc",
    "Cyclus.Cycpp.C44_fails_indirect"
   ],
   "note": "Both functions characterised for every finite acyclic graph; without end on cycles. False: the documented condition on other classes of the query set, and classes derived from another archetype have no wrangler at all."
  },
  {
   "property": "C45",
   "status": "proved",
   "theorems": [
    "Cyclus.Fn.C45_value",
    "Cyclus.Fn.C45_zero",
    "Cyclus.Fn.C45_continuous",
    "Cyclus.Fn.C45_joint",
    "Cyclus.Fn.C45_accepted",
    "Cyclus.Fn.C45_first",
    "Cyclus.Fn.C45_shift"
   ],
   "note": "Over the real numbers, for arbitrary functions: the function built is what the pieces describe, it is zero before the first start, segments meet the previous value, and with the default it is continuous in the topological sense. C45_shift: the first segment is moved so that it starts at 0."
  },
  {
   "property": "C46",
   "status": "proved",
   "theorems": [
    "Cyclus.Enrich.C46_balance",
    "Cyclus.Enrich.C46_unique",
    "Cyclus.Enrich.C46_swu",
    "Cyclus.Enrich.C46_range",
    "Cyclus.Enrich.C46_fails_depleted",
    "Cyclus.Enrich.C46_fails_equal"
   ],
   "note": "Over the real numbers. Balances, uniqueness, and that the separative work is that of the potential and positive. Extra findings: a tails assay of 0, which the documentation admits, and feed equal to tails give no number and no exception."
  },
  {
   "property": "C47",
   "status": "partial",
   "theorems": [
    "Cyclus.Policy.C47_amount",
    "Cyclus.Policy.C47_bound",
    "Cyclus.Policy.C47_portfolio",
    "Cyclus.Policy.C47_fits",
    "Cyclus.Policy.C47_fails_shared",
    "Cyclus.Policy.C47_fails_size",
    "Cyclus.Policy.C47_fails_overflow",
    "Cyclus.Policy.C47_fails_null"
   ],
   "note": "Proved for every state and parameters with one policy per buffer and sizes in [0,1]: the exact amount, its bounds, quanta, and that any delivery within the order is accepted and fits buffer and tracker. False for two policies on one buffer (C47_fails_shared), negative samples of the size (C47_fails_size), more than INT_MAX quanta (C47_fails_overflow); Init without tracker uses an uninitialised pointer (C47_fails_null)."
  },
  {
   "property": "C48",
   "status": "partial",
   "theorems": [
    "Cyclus.Sell.C48_packages_partial",
    "Cyclus.Sell.C48_plain_partial",
    "Cyclus.Sell.C48_fails_packages",
    "Cyclus.Sell.C48_fails_small"
   ],
   "note": "Conservation proved when every trade fills one package and leaves no remainder of at most eps, and when no packaging is needed. False in general: of a trade that fills several packages only the first is sent and the others are lost (C48_fails_packages), and a remainder of at most eps is lost (C48_fails_small)."
  },
  {
   "property": "C49",
   "status": "proved",
   "theorems": [
    "Cyclus.CompMath.C49_normalize",
    "Cyclus.CompMath.C49_add_sub",
    "Cyclus.CompMath.C49_create",
    "Cyclus.CompMath.C49_threshold",
    "Cyclus.CompMath.C49_atom_mass"
   ],
   "note": "Exact arithmetic."
  },
  {
   "property": "C50",
   "status": "partial",
   "theorems": [
    "Cyclus.Prog.C50_supply",
    "Cyclus.Prog.C50_arcs",
    "Cyclus.Prog.C50_exclusive",
    "Cyclus.Prog.C50_complete",
    "Cyclus.Prog.C50_size",
    "Cyclus.Prog.C50_error",
    "Cyclus.Prog.C50_fails_request",
    "Cyclus.Prog.C50_fails_bid"
   ],
   "note": "Proved for every graph and feasible point: supply group capacities, bounds of arcs by request nodes, exclusive arcs used fully or not at all, at most one match per exclusive node group, the only error; every admissible use of the arcs is feasible, so the program is never infeasible; number and cost of columns. False: optimal solutions may exceed the request group (C50_fails_request) and the quantity of a bid (C50_fails_bid)."
  },
  {
   "property": "C51",
   "status": "partial",
   "theorems": [
    "Cyclus.Commod.C51_total",
    "Cyclus.Commod.C51_register",
    "Cyclus.Commod.C51_unregister",
    "Cyclus.Commod.C51_supply",
    "Cyclus.Commod.C51_orders",
    "Cyclus.Commod.C51_cover_partial",
    "Cyclus.Commod.C51_cheapest_partial",
    "Cyclus.Commod.C51_fails_none",
    "Cyclus.Commod.C51_fails_capacity",
    "Cyclus.Commod.C51_fails_truncate"
   ],
   "note": "Totals, supply and shape of orders for every state; coverage and least cost for every feasible and optimal point that COIN returns. False without a producer (undefined behaviour), with producers of capacity 0 (no error, nothing ordered), and for values that are integer within tolerance only (truncated instead of rounded)."
  },
  {
   "property": "C52",
   "status": "partial",
   "theorems": [
    "Cyclus.RecipeCtx.C52_lookup",
    "Cyclus.RecipeCtx.C52_sets",
    "Cyclus.RecipeCtx.C52_snapshot",
    "Cyclus.RecipeCtx.C52_fails_unknown",
    "Cyclus.RecipeCtx.C52_fails_stale",
    "Cyclus.RecipeCtx.C52_fails_update",
    "Cyclus.RecipeCtx.C52_fails_empty",
    "Cyclus.RecipeCtx.C52_fails_equal"
   ],
   "note": "Lookups after every history and restored contexts. False: unknown commodities are not rejected and change the context; stale output commodities; UpdateInRec of an unknown commodity is lost in a snapshot; a context without commodities cannot be restored; equality ignores the sets."
  },
  {
   "property": "C53",
   "status": "proved",
   "theorems": [
    "Cyclus.Policy.C53_space",
    "Cyclus.Policy.C53_buffer",
    "Cyclus.Policy.C53_fill",
    "Cyclus.Policy.C53_capacity",
    "Cyclus.Policy.C53_init",
    "Cyclus.Policy.C53_fails_init"
   ],
   "note": "Space of the tracker and of one buffer, change of capacity, initialisation. C53_fails_init is an extra finding: a failing Init has already replaced the buffers."
  },
  {
   "property": "C54",
   "status": "partial",
   "theorems": [
    "Cyclus.Tracker.C54_untracked_silent_partial",
    "Cyclus.Tracker.C54_fails_clone",
    "Cyclus.Tracker.C54_fails_product"
   ],
   "note": "Calls made directly on an untracked resource are silent, and everything taken from a Material without context stays untracked; pieces of clones are tracked again, and pieces of untracked Products crash."
  },
  {
   "property": "C55",
   "status": "proved",
   "theorems": [
    "Cyclus.CompMath.C55_almostEq"
   ],
   "note": "Exact arithmetic."
  },
  {
   "property": "C56",
   "status": "proved",
   "theorems": [
    "Cyclus.Tracker.C56_rows_show_quantity"
   ],
   "note": ""
  },
  {
   "property": "C57",
   "status": "proved",
   "theorems": [
    "Cyclus.Exchange.C57_no_exception"
   ],
   "note": ""
  },
  {
   "property": "C58",
   "status": "proved",
   "theorems": [
    "Cyclus.Exchange.C58_pseudo_cost"
   ],
   "note": ""
  },
  {
   "property": "C59",
   "status": "proved",
   "theorems": [
    "Cyclus.Exchange.C59_maximal"
   ],
   "note": ""
  },
  {
   "property": "C60",
   "status": "proved",
   "theorems": [
    "Cyclus.Exchange.C60_preference"
   ],
   "note": ""
  },
  {
   "property": "C61",
   "status": "proved",
   "theorems": [
    "Cyclus.Dre.C61_consistent",
    "Cyclus.Dre.C61_request_groups",
    "Cyclus.Dre.C61_supply_groups",
    "Cyclus.Dre.C61_unit_capacities"
   ],
   "note": ""
  },
  {
   "property": "C62",
   "status": "partial",
   "theorems": [
    "Cyclus.Dre.C62_trades",
    "Cyclus.Dre.C62_fails_request"
   ],
   "note": "Bounds for bid constraints, request quantities and offers proved; constraints attached to a request portfolio are not enforced because Translate adds the quantity constraint and the greedy solver takes the largest capacity (C62_fails_request)."
  },
  {
   "property": "C63",
   "status": "proved",
   "theorems": [
    "Cyclus.Dre.C63_order",
    "Cyclus.Dre.C63_deterministic",
    "Cyclus.Dre.C63_collect"
   ],
   "note": ""
  },
  {
   "property": "C64",
   "status": "proved",
   "theorems": [
    "Cyclus.Dre.C64_preferences"
   ],
   "note": ""
  },
  {
   "property": "C65",
   "status": "proved",
   "theorems": [
    "Cyclus.Timing.C65_snapshots",
    "Cyclus.Timing.C24_end"
   ],
   "note": ""
  },
  {
   "property": "C66",
   "status": "proved",
   "theorems": [
    "Cyclus.Timing.C66_listeners"
   ],
   "note": ""
  },
  {
   "property": "C67",
   "status": "partial",
   "theorems": [
    "Cyclus.Agents.C67_family",
    "Cyclus.Agents.C67_fails_print"
   ],
   "note": "All of it except PrintChildren, which recurses for ever when the agent has a child."
  },
  {
   "property": "C68",
   "status": "partial",
   "theorems": [
    "Cyclus.Policy.C68_cap",
    "Cyclus.Policy.C68_rest",
    "Cyclus.Policy.C68_fails_bulk"
   ],
   "note": "Proved for buffers that keep materials apart. False for buffers that merge materials (C68_fails_bulk): the quantity is read after Push has set it to zero."
  },
  {
   "property": "C69",
   "status": "partial",
   "theorems": [
    "Cyclus.Policy.C69_periods",
    "Cyclus.Policy.C69_silent",
    "Cyclus.Policy.C69_fails_reset",
    "Cyclus.Policy.C69_fails_negative"
   ],
   "note": "Proved for fresh policies called in every step with active lengths >= 1 and dormant lengths >= 0. False after ResetBehavior of an always active policy (C69_fails_reset) and for negative samples in the middle of a run (C69_fails_negative)."
  },
  {
   "property": "C70",
   "status": "proved",
   "theorems": [
    "Cyclus.Sell.C70_bids",
    "Cyclus.Sell.C70_quantum",
    "Cyclus.Sell.C70_fails_empty"
   ],
   "note": "Bids and acceptance of packages. C70_fails_empty is an extra finding: a quantum below the fill minimum makes SetPackage read the first element of an empty vector."
  },
  {
   "property": "C71",
   "status": "partial",
   "theorems": [
    "Cyclus.Sell.C71_transport_partial",
    "Cyclus.Sell.C71_fails_plain"
   ],
   "note": "Proved for policies that package and a buffer without such packages. False for material that needs no packaging (C71_fails_plain): it is not counted."
  },
  {
   "property": "C72",
   "status": "partial",
   "theorems": [
    "Cyclus.Fn.C72_factory",
    "Cyclus.Fn.C72_fails_short",
    "Cyclus.Fn.C72_fails_word"
   ],
   "note": "Proved for enough numbers and unknown names. False for missing parameters (a coefficient that is never initialised) and for words that are no numbers (read as 0)."
  },
  {
   "property": "C73",
   "status": "partial",
   "theorems": [
    "Cyclus.Commod.C73_entries",
    "Cyclus.Commod.C73_copy",
    "Cyclus.Commod.C73_query",
    "Cyclus.Commod.C73_fails_query",
    "Cyclus.Commod.C73_fails_default"
   ],
   "note": "Proved for commodities that are produced. False for others: a query makes the producer a producer of the commodity, with other defaults than its own."
  },
  {
   "property": "C74",
   "status": "partial",
   "theorems": [
    "Cyclus.Commod.C74_demand",
    "Cyclus.Commod.C74_fails_unknown",
    "Cyclus.Commod.C74_fails_lost"
   ],
   "note": "Proved for registered commodities. False for others: asking for the demand uses a NULL pointer, makes the manager claim the commodity and blocks a later registration."
  },
  {
   "property": "C75",
   "status": "partial",
   "theorems": [
    "Cyclus.MemBack.C75_register_partial",
    "Cyclus.MemBack.C75_deregister_partial",
    "Cyclus.MemBack.C75_request",
    "Cyclus.MemBack.C75_fails_all",
    "Cyclus.MemBack.C75_fails_all_deregister",
    "Cyclus.MemBack.C75_fails_answer"
   ],
   "note": "Proved for backends with a registry. False while everything is stored (the setting of the server): registering restricts storing to the named tables, deregistering stops it. No registry message is ever sent after these requests: send_registry() is called without its argument."
  },
  {
   "property": "C76",
   "status": "partial",
   "theorems": [
    "Cyclus.Decay.C76_value_partial",
    "Cyclus.Decay.C76_shared",
    "Cyclus.Decay.C76_immutable",
    "Cyclus.Decay.C76_create",
    "Cyclus.Decay.C76_fails_secs",
    "Cyclus.Decay.C76_fails_unknown"
   ],
   "note": "All histories with one length of time steps and a solver that is additive in time. False: the cache ignores the length of time steps, so that a second length gets the results of the first; nuclides unknown to the solver disappear."
  },
  {
   "property": "C77",
   "status": "partial",
   "theorems": [
    "Cyclus.Decay.C77_content_partial",
    "Cyclus.Decay.C77_call",
    "Cyclus.Decay.C77_never",
    "Cyclus.Decay.C77_extract",
    "Cyclus.Decay.C77_fails_early",
    "Cyclus.Decay.C77_fails_back",
    "Cyclus.Decay.C77_fails_absorb"
   ],
   "note": "All histories of a material that is decayed to the current time. False: decaying to an earlier time loses the time up to now, with more than 100 nuclides a time before the last decay decays backwards, and combining materials keeps only the time of the larger one."
  },
  {
   "property": "C78",
   "status": "partial",
   "theorems": [
    "Cyclus.Decay.C78_once",
    "Cyclus.Decay.C78_fractions_partial",
    "Cyclus.Decay.C78_fails_blank"
   ],
   "note": "Exact rows after all sequences of recordings. Compositions without mass have no rows or fractions that sum to 0."
  },
  {
   "property": "C79",
   "status": "partial",
   "theorems": [
    "Cyclus.Inventory.C79_inventory",
    "Cyclus.Inventory.C79_tock_partial",
    "Cyclus.Inventory.C79_off",
    "Cyclus.Inventory.C79_fails_blank",
    "Cyclus.Inventory.C79_fails_mixed",
    "Cyclus.Inventory.C79_fails_null"
   ],
   "note": "All agents and inventories of materials, when the decay mode is not lazy. False: materials with an empty composition have no rows, an inventory whose first object is no material is skipped, and one whose later object is no material dereferences NULL."
  },
  {
   "property": "C80",
   "status": "partial",
   "theorems": [
    "Cyclus.MatQuery.C80_mass",
    "Cyclus.MatQuery.C80_sum",
    "Cyclus.MatQuery.C80_set",
    "Cyclus.MatQuery.C80_atom",
    "Cyclus.MatQuery.C80_atomset",
    "Cyclus.MatQuery.C80_moles",
    "Cyclus.MatQuery.C80_amount",
    "Cyclus.MatQuery.C80_extract",
    "Cyclus.MatQuery.C80_fails_empty"
   ],
   "note": "All queries of materials with some mass in the composition. False for sets of nuclides of an empty material, whose mass fraction is 0/0."
  },
  {
   "property": "C81",
   "status": "partial",
   "theorems": [
    "Cyclus.MatQuery.C81_atom",
    "Cyclus.MatQuery.C81_mass",
    "Cyclus.MatQuery.C81_convert",
    "Cyclus.MatQuery.C81_qty_partial",
    "Cyclus.MatQuery.C81_fails_other"
   ],
   "note": "The assays for all materials; the quantity if U-235 and U-238 are the only isotopes of uranium. False: other isotopes are not counted."
  },
  {
   "property": "C82",
   "status": "partial",
   "theorems": [
    "Cyclus.ResMap.C82_quantity_partial",
    "Cyclus.ResMap.C82_keys",
    "Cyclus.ResMap.C82_restart_partial",
    "Cyclus.ResMap.C82_fails_stale",
    "Cyclus.ResMap.C82_fails_reference",
    "Cyclus.ResMap.C82_fails_null",
    "Cyclus.ResMap.C82_fails_shared"
   ],
   "note": "All histories in which resources change only while the sum is not cached, and restarts with each resource under one key. False: the cached sum is not updated when a resource changes or a reference is written, a read of a missing key stores a null pointer that crashes quantity(), and a resource under two keys loses one."
  },
  {
   "property": "C83",
   "status": "partial",
   "theorems": [
    "Cyclus.Discovery.C83_names_partial",
    "Cyclus.Discovery.C83_files_partial",
    "Cyclus.Discovery.C83_fails_end",
    "Cyclus.Discovery.C83_fails_begin",
    "Cyclus.Discovery.C83_fails_recursive"
   ],
   "note": "All texts that do not begin with the word, up to an empty name, and the files of one directory. False: a text that ends in the word yields an empty name, one that begins with it reads before its start, and directories are not searched recursively."
  },
  {
   "property": "C84",
   "status": "proved",
   "theorems": [
    "Cyclus.Discovery.C84_split",
    "Cyclus.Discovery.C84_module",
    "Cyclus.Discovery.C84_data",
    "Cyclus.Discovery.C84_unset"
   ],
   "note": "All values of the environment and all file systems; the existence of files is an arbitrary predicate."
  },
  {
   "property": "C85",
   "status": "proved",
   "theorems": [
    "Cyclus.Position.C85_range",
    "Cyclus.Position.C85_roundtrip",
    "Cyclus.Position.C85_stable",
    "Cyclus.Position.C85_distance",
    "Cyclus.Position.C85_metric"
   ],
   "note": "All coordinates; doubles are exact numbers."
  },
  {
   "property": "C86",
   "status": "partial",
   "theorems": [
    "Cyclus.Position.C86_value",
    "Cyclus.Position.C86_text_partial",
    "Cyclus.Position.C86_fails_sixty",
    "Cyclus.Position.C86_fails_pad",
    "Cyclus.Position.C86_fails_zero"
   ],
   "note": "The value for all coordinates; the text for all with seconds other than 0 and 10. False: whole minutes can be written as 60 seconds of the previous one, 10 seconds with three digits, and zero with a minus sign."
  },
  {
   "property": "C87",
   "status": "partial",
   "theorems": [
    "Cyclus.Archetypes.C87_bids_partial",
    "Cyclus.Archetypes.C87_trades",
    "Cyclus.Archetypes.C87_unknown",
    "Cyclus.Archetypes.C87_fails_offer",
    "Cyclus.Archetypes.C87_fails_zero"
   ],
   "note": "Trades for all sources; bids for sources of positive capacity, unless asked for more than the capacity without a recipe. False: without a recipe all that is asked for is offered, and a source of capacity 0 throws as soon as it is asked."
  },
  {
   "property": "C88",
   "status": "partial",
   "theorems": [
    "Cyclus.Archetypes.C88_requests",
    "Cyclus.Archetypes.C88_accept_partial",
    "Cyclus.Archetypes.C88_power",
    "Cyclus.Archetypes.C88_step",
    "Cyclus.Archetypes.C88_fails_full",
    "Cyclus.Archetypes.C88_fails_twice"
   ],
   "note": "All numbers of steps, all calls, and inventories with space. False: a full inventory does not reduce the request, so that receiving throws, and a sink asks for its capacity twice, of materials and of products."
  },
  {
   "property": "C89",
   "status": "partial",
   "theorems": [
    "Cyclus.Archetypes.C89_prey",
    "Cyclus.Archetypes.C89_prey_tock",
    "Cyclus.Archetypes.C89_hunt_partial",
    "Cyclus.Archetypes.C89_requests",
    "Cyclus.Archetypes.C89_life",
    "Cyclus.Archetypes.C89_fails_success",
    "Cyclus.Archetypes.C89_fails_carry"
   ],
   "note": "All lives and meals, and hunts with a success between 0 and 1. False: a success above 1 runs out of a vector, and consumption is carried over time steps although documented per time step."
  },
  {
   "property": "C90",
   "status": "partial",
   "theorems": [
    "Cyclus.LMat.C90_elements",
    "Cyclus.LMat.C90_sums",
    "Cyclus.LMat.C90_sizes",
    "Cyclus.LMat.C90_product_partial",
    "Cyclus.LMat.C90_power_partial",
    "Cyclus.LMat.C90_fails_wide",
    "Cyclus.LMat.C90_fails_tall",
    "Cyclus.LMat.C90_fails_power"
   ],
   "note": "Everything for all sizes, except products of a matrix that is not square and powers below 1. False: the inner loop of the product runs over the rows instead of the columns, so that terms are missing or memory outside of a row is read; A ^ 0 is A."
  },
  {
   "property": "C91",
   "status": "partial",
   "theorems": [
    "Cyclus.LMat.C91_series",
    "Cyclus.LMat.C91_size",
    "Cyclus.LMat.C91_accuracy_partial",
    "Cyclus.LMat.C91_sign_partial",
    "Cyclus.LMat.C91_total",
    "Cyclus.LMat.C91_fails_general"
   ],
   "note": "Termination and the value of the series for all matrices; the error bound for the matrices of decays (nothing negative off the diagonal, no positive column sum) against every solution of the differential equation. False for other matrices: the number of terms is chosen from the diagonal alone."
  },
  {
   "property": "C92",
   "status": "partial",
   "theorems": [
    "Cyclus.Decayer.C92_tables",
    "Cyclus.Decayer.C92_construct",
    "Cyclus.Decayer.C92_ends",
    "Cyclus.Decayer.C92_result",
    "Cyclus.Decayer.C92_decay_partial",
    "Cyclus.Decayer.C92_fails_short",
    "Cyclus.Decayer.C92_fails_shared",
    "Cyclus.Decayer.C92_fails_stale"
   ],
   "note": "All histories, all data and orders. The result is within 0.001 of the decay equations if no decay constant is taken for zero. False: the heuristic for stable nuclides tests exp(-2903040000 lambda) == 0, which holds for the nuclides that decay fast, and these are then kept for ever; a second instance with new nuclides makes the first one throw; GetResult keeps old amounts."
  },
  {
   "property": "C93",
   "status": "partial",
   "theorems": [
    "Cyclus.Random.C93_truncated",
    "Cyclus.Random.C93_ends",
    "Cyclus.Random.C93_int",
    "Cyclus.Random.C93_ranges",
    "Cyclus.Random.C93_uses",
    "Cyclus.Random.C93_constructors",
    "Cyclus.Random.C93_reproducible",
    "Cyclus.Random.C93_fails_uniform_int",
    "Cyclus.Random.C93_fails_make_normal",
    "Cyclus.Random.C93_fails_limits",
    "Cyclus.Random.C93_fails_parameters",
    "Cyclus.Random.C93_fails_trials"
   ],
   "note": "All engines, parameters and states. False: random_uniform_int includes the upper limit that is documented as excluded; makeNormalDist ignores its limits; limits in the wrong order loop for ever; the Poisson distribution uses its mean before it is set, p() of the binary distribution is never set and that of the binomial one is cut to an integer; the negative binomial distribution counts failures instead of trials."
  },
  {
   "property": "C94",
   "status": "partial",
   "theorems": [
    "Cyclus.Registry.C94_recipes",
    "Cyclus.Registry.C94_packages",
    "Cyclus.Registry.C94_prototypes",
    "Cyclus.Registry.C94_refusals",
    "Cyclus.Registry.C94_versions",
    "Cyclus.Registry.C94_load_partial",
    "Cyclus.Registry.C94_load_refuses",
    "Cyclus.Registry.C94_input",
    "Cyclus.Registry.C94_fails_overwrite",
    "Cyclus.Registry.C94_fails_reserved",
    "Cyclus.Registry.C94_fails_default_limit"
   ],
   "note": "Lookups, refusals and versions for all histories; loading is exact whenever no prototype name was recorded twice and the reserved names were left alone. False: a database with an overwritten prototype cannot be loaded; a type may take the reserved name before the unlimited type exists, and is lost; a transport unit without upper limit in the input file converts the largest double to int, which is undefined."
  },
  {
   "property": "C95",
   "status": "partial",
   "theorems": [
    "Cyclus.Info.C95_load_partial",
    "Cyclus.Info.C95_initialise",
    "Cyclus.Info.C95_rows",
    "Cyclus.Info.C95_restarts",
    "Cyclus.Info.C95_numbers",
    "Cyclus.Info.C95_input_partial",
    "Cyclus.Info.C95_fails_tolerance",
    "Cyclus.Info.C95_fails_random",
    "Cyclus.Info.C95_fails_month",
    "Cyclus.Info.C95_fails_branch",
    "Cyclus.Info.C95_fails_duration"
   ],
   "note": "Loading, initialisation and chains of restarts for all information that fits an int. False: a restarted process keeps the default global tolerances; its generator starts again at the seed; an invalid month is refused only after its rows are recorded; the information of a branch is always refused and Branch always throws; a duration of 2^31 or more is cut to its lower 32 bits."
  },
  {
   "property": "C96",
   "status": "partial",
   "theorems": [
    "Cyclus.Infile.C96_find",
    "Cyclus.Infile.C96_string",
    "Cyclus.Infile.C96_elements",
    "Cyclus.Infile.C96_int",
    "Cyclus.Infile.C96_optional_partial",
    "Cyclus.Infile.C96_recipe",
    "Cyclus.Infile.C96_fails_twice",
    "Cyclus.Infile.C96_fails_text",
    "Cyclus.Infile.C96_fails_recipe"
   ],
   "note": "Paths, texts, errors, numbers, truth values and recipes for all documents. False: an optional parameter given twice is silently replaced by its default; empty text, text beside a comment and CDATA cannot be read; a nuclide listed twice keeps only its last amount, and white space around the basis of a recipe is refused."
  },
  {
   "property": "C97",
   "status": "partial",
   "theorems": [
    "Cyclus.Convert.C97_convert_partial",
    "Cyclus.Convert.C97_numbers",
    "Cyclus.Convert.C97_fails_precision",
    "Cyclus.Convert.C97_fails_escape",
    "Cyclus.Convert.C97_fails_root",
    "Cyclus.Convert.C97_fails_null",
    "Cyclus.Convert.C97_fails_empty",
    "Cyclus.Convert.C97_fails_mixed"
   ],
   "note": "Exact text for all objects whose arrays are homogeneous and not empty, whose texts need no escaping and whose numbers have six digits. False otherwise: texts are not escaped, numbers are rounded to six digits, files that are not objects are not refused, arrays with null, empty arrays and mixed arrays give XML that is not well formed or says something else."
  },
  {
   "property": "C98",
   "status": "partial",
   "theorems": [
    "Cyclus.Convert.C98_values",
    "Cyclus.Convert.C98_back_partial",
    "Cyclus.Convert.C98_fails_text",
    "Cyclus.Convert.C98_fails_comment",
    "Cyclus.Convert.C98_fails_empty"
   ],
   "note": "Values and the exact condition of failure for all documents; the way there and back for documents without text that needs escaping in which siblings of the same name are all texts or all have elements. False: text beside elements or comments is lost, an element with only a comment or CDATA makes the conversion fail with a CastError, repeated empty elements come back nested in one another."
  },
  {
   "property": "C99",
   "status": "partial",
   "theorems": [
    "Cyclus.Schema.C99_specs",
    "Cyclus.Schema.C99_lookup",
    "Cyclus.Schema.C99_aliases_partial",
    "Cyclus.Schema.C99_schema",
    "Cyclus.Schema.C99_flat",
    "Cyclus.Schema.C99_load",
    "Cyclus.Schema.C99_fails_twice",
    "Cyclus.Schema.C99_fails_alias",
    "Cyclus.Schema.C99_fails_absent",
    "Cyclus.Schema.C99_fails_format"
   ],
   "note": "Archetypes, lookups, both schemas and loading for all documents and templates; every alias leads to its archetype if no archetype and no alias is listed twice. False: an archetype listed again under another alias is dropped with its alias, two archetypes with one alias are not refused, the holes of kinds without archetypes stay although the code means to fill them, and the flat loader takes input that is given as text for the name of a file."
  },
  {
   "property": "C100",
   "status": "partial",
   "theorems": [
    "Cyclus.Initial.C100_agents",
    "Cyclus.Initial.C100_refuses",
    "Cyclus.Initial.C100_unknown",
    "Cyclus.Initial.C100_fails"
   ],
   "note": "Exact prototypes, agents and parents for all documents whose numbers fit into an int, and all refusals. False: the list of facilities of an institution may name regions and institutions, and a number of 2147483648 builds nothing."
  },
  {
   "property": "C101",
   "status": "partial",
   "theorems": [
    "Cyclus.Nuc.C101_symbols",
    "Cyclus.Nuc.C101_numbers",
    "Cyclus.Nuc.C101_elements",
    "Cyclus.Nuc.C101_mcnp_partial",
    "Cyclus.Nuc.C101_fixed_partial",
    "Cyclus.Nuc.C101_isnuclide",
    "Cyclus.Nuc.C101_names",
    "Cyclus.Nuc.C101_digits",
    "Cyclus.Nuc.C101_refuses",
    "Cyclus.Nuc.C101_isnuclide_text",
    "Cyclus.Nuc.C101_back",
    "Cyclus.Nuc.C101_zzllaaam_partial",
    "Cyclus.Nuc.C101_back_zzllaaam_partial",
    "Cyclus.Nuc.C101_fails_mcnp",
    "Cyclus.Nuc.C101_fails_small",
    "Cyclus.Nuc.C101_fails_heavy_hydrogen",
    "Cyclus.Nuc.C101_fails_keys",
    "Cyclus.Nuc.C101_fails_state",
    "Cyclus.Nuc.C101_fails_heavy",
    "Cyclus.Nuc.C101_fails_texts",
    "Cyclus.Nuc.C101_fails_overflow"
   ],
   "note": "All numeric forms and all names for all nuclides, for the form of MCNP and ZZ-LL-AAAM for most elements. False: MCNP numbers of elements whose atomic number ends in a zero are misread, 0, 200 and 401 are accepted, H-300 is a nuclide, compositions may have the same nuclide under two keys, higher states have the name of the first, 101-Md-258 is read as nobelium 258, U1235 as neptunium 235 and 92U235 as natural uranium, and some numbers overflow."
  },
  {
   "property": "C102",
   "status": "partial",
   "theorems": [
    "Cyclus.Diag.C102_warnings",
    "Cyclus.Diag.C102_verbosity",
    "Cyclus.Diag.C102_messages",
    "Cyclus.Diag.C102_form",
    "Cyclus.Diag.C102_switches",
    "Cyclus.Diag.C102_fails_wrap",
    "Cyclus.Diag.C102_fails_no_mem",
    "Cyclus.Diag.C102_fails_debug1",
    "Cyclus.Diag.C102_fails_verb"
   ],
   "note": "False: SetNoMem (and with it --no-mem of the Python command line) switches off the messages of agents instead, Python's LEV_DEBUG1 is INFO5, -v -1 hides errors, and after 2^32 warnings of a kind they are shown again. The rest holds without restriction."
  },
  {
   "property": "C103",
   "status": "partial",
   "theorems": [
    "Cyclus.Cli.C103_information_partial",
    "Cyclus.Cli.C103_usage",
    "Cyclus.Cli.C103_run_partial",
    "Cyclus.Cli.C103_errors_partial",
    "Cyclus.Cli.C103_restart_partial",
    "Cyclus.Cli.C103_restart_spec",
    "Cyclus.Cli.C103_fails_restart_lost",
    "Cyclus.Cli.C103_fails_restart_no_input",
    "Cyclus.Cli.C103_fails_schema_path",
    "Cyclus.Cli.C103_fails_no_catch",
    "Cyclus.Cli.C103_fails_information",
    "Cyclus.Cli.C103_fails_uncaught",
    "Cyclus.Cli.C103_fails_rng_print"
   ],
   "note": "False: a restarted simulation loses its last (n mod 10000) data although the exit code is 0, since the recorder of SimInit::Restart is never flushed; a restart without an input file ends abnormally; --schema-path is ignored if the input asks for the flat schema; CYCLUS_NO_CATCH=0 disables catching; failing --agent-* options exit with 0; unreadable input files and errors of the initialisation are not caught; the flag of --rng-print is not initialised."
  },
  {
   "property": "C104",
   "status": "partial",
   "theorems": [
    "Cyclus.Stock.C104.C104_resource_partial",
    "Cyclus.Stock.C104.C104_inventories_partial",
    "Cyclus.Stock.C104.C104_fails_package",
    "Cyclus.Stock.C104.C104_fails_decay_time",
    "Cyclus.Stock.C104.C104_fails_emptied",
    "Cyclus.Stock.C104.C104_fails_untracked",
    "Cyclus.Stock.C104.C104_fails_again"
   ],
   "note": "False: package names are not restored; Material::Transmute records the decay time before updating it, so that a restored material decays again for time already accounted for; resources with a quantity of at most eps_rsrc are restored with the quantity they had before; untracked resources have no row (undefined behaviour); the database of a restarted simulation has no rows for restored resources, compositions and qualities, so that it cannot itself be restarted from."
  },
  {
   "property": "C105",
   "status": "partial",
   "theorems": [
    "Cyclus.Conf.C105.C105_choice_partial",
    "Cyclus.Conf.C105.C105_unknown",
    "Cyclus.Conf.C105.C105_fails_restart",
    "Cyclus.Conf.C105.C105_fails_preconditioner",
    "Cyclus.Conf.C105.C105_fails_exclusive"
   ],
   "note": "False: allow_exclusive_orders does not change what the greedy solver trades (it treats orders as exclusive in any case, while COIN honours the option); any name of a preconditioner is accepted and ignored; a restarted simulation does not record its solver, so that it cannot be restarted. Proved: files that follow the schema yield the solver they ask for with its options and defaults, in any database, without changing the solvers of other simulations; other names and empty configurations are rejected."
  },
  {
   "property": "C106",
   "status": "partial",
   "theorems": [
    "Cyclus.Sql.C106.C106_rows_partial",
    "Cyclus.Sql.C106.C106_unsupported",
    "Cyclus.Sql.C106.C106_stuck",
    "Cyclus.Sql.C106.C106_fails_nan",
    "Cyclus.Sql.C106.C106_fails_nul",
    "Cyclus.Sql.C106.C106_fails_order",
    "Cyclus.Sql.C106.C106_fails_type",
    "Cyclus.Sql.C106.C106_fails_cast",
    "Cyclus.Sql.C106.C106_fails_retry"
   ],
   "note": "False: NaN is read as 0; texts end at NUL; names of data after the first are ignored, so that values in another order are read under each other's names; another type for a title in an existing file is converted silently, and within one backend its failed cast leaves the transaction open, after which nothing more is saved; a title whose first datum was rejected cannot be written any more, and trying it has the same effect. Proved: all other data of any number of backends are read back exactly; unsupported types are rejected without losing anything."
  },
  {
   "property": "C107",
   "status": "partial",
   "theorems": [
    "Cyclus.Par.C107.C107_critical_partial",
    "Cyclus.Par.C107.C107_same_data",
    "Cyclus.Par.C107.C107_one_thread",
    "Cyclus.Par.C107.C107_fails_datum",
    "Cyclus.Par.C107.C107_fails_count",
    "Cyclus.Par.C107.C107_fails_mixed",
    "Cyclus.Par.C107.C107_fails_ids",
    "Cyclus.Par.C107.C107_fails_order",
    "Cyclus.Par.C107.C107_fails_throw"
   ],
   "note": "False: only SchedBuild and SchedDecom are critical sections; time series, explicit inventories and resource ids are not, so that data are lost or mixed and ids are used twice, also the data of a SchedBuild if another thread records at the same time; the order of builds, and hence the ids of agents, depends on the threads; an exception in a parallel region ends the program without saving. Proved: with critical calls only, every execution is one of the calls one by one in an order that keeps that of each thread, without deadlock; with one thread everything is in order."
  },
  {
   "property": "C108",
   "status": "proved",
   "theorems": [
    "Cyclus.Kahan.C108.C108_accurate",
    "Cyclus.Kahan.C108.C108_relative",
    "Cyclus.Kahan.C108.C108_order",
    "Cyclus.Kahan.C108.C108_whole",
    "Cyclus.Kahan.C108.C108_callers",
    "Cyclus.Kahan.C108.C108_fails_infinite",
    "Cyclus.Kahan.C108.C108_fails_infinities",
    "Cyclus.Kahan.C108.C108_fails_range",
    "Cyclus.Kahan.C108.C108_fails_nan"
   ],
   "note": "Also proved where sums of other values go wrong: minus infinity, or two infinities, give NaN instead of an infinity; values in range with a sum in range give NaN if a partial sum of the sorted values leaves the range; NaN makes the sorting undefined."
  },
  {
   "property": "C109",
   "status": "partial",
   "theorems": [
    "Cyclus.Hdf5Rows.C109.C109_seen",
    "Cyclus.Hdf5Rows.C109.C109_roundtrip_partial",
    "Cyclus.Hdf5Rows.C109.C109_inside",
    "Cyclus.Hdf5Rows.C109.C109_fails_short",
    "Cyclus.Hdf5Rows.C109.C109_fails_inner",
    "Cyclus.Hdf5Rows.C109.C109_fails_padding",
    "Cyclus.Hdf5Rows.C109.C109_fails_shape",
    "Cyclus.Hdf5Rows.C109.C109_fails_nul",
    "Cyclus.Hdf5Rows.C109.C109_tables",
    "Cyclus.Hdf5Rows.C109.C109_fails_tables"
   ],
   "note": "Proved for values which fill their shape, and what is read otherwise is determined as far as it is. The code violates the property: behind a vector, list, set or map that is shorter than its shape the file gets uninitialised memory, which is read back as elements (the condition of the memset is never true); inside another value it is filled up with elements of zeros, which become keys of maps. An inner container longer than its shape makes memset clear nearly the whole address space. A later datum with a longer shape is written over the end of its column. Tables() hides tables whose names end in Keys or Vals."
  },
  {
   "property": "C110",
   "status": "partial",
   "theorems": [
    "Cyclus.VLFiles.C110.C110_holds_partial",
    "Cyclus.VLFiles.C110.C110_read_partial",
    "Cyclus.VLFiles.C110.C110_session_partial",
    "Cyclus.VLFiles.C110.C110_keys_partial",
    "Cyclus.VLFiles.C110.C110_fails_variation",
    "Cyclus.VLFiles.C110.C110_fails_index",
    "Cyclus.VLFiles.C110.C110_fails_lost",
    "Cyclus.VLFiles.C110.C110_fails_handle",
    "Cyclus.VLFiles.C110.C110_fails_keys"
   ],
   "note": "Proved as long as no write ends with an exception, the digests are inside the value array, and in a session each type used has a table created in it or is the only one used of its C++ type. The code violates the property otherwise: after opening a file again, only the first variation that opens a data set gets its HDF5 type, and every read in another variation throws IOError, even after its table is created; the digest is appended before the value is stored, so after an exception the value counts as stored and a later write silently drops it; a digest with a component UINT_MAX is outside the value array; a value written in two variations is listed twice."
  },
  {
   "property": "C111",
   "status": "partial",
   "theorems": [
    "Cyclus.Nuc.C111_numbers",
    "Cyclus.Nuc.C111_numbers_read",
    "Cyclus.Nuc.C111_mcnp_partial",
    "Cyclus.Nuc.C111_mcnp_ends",
    "Cyclus.Nuc.C111_texts_read",
    "Cyclus.Nuc.C111_texts",
    "Cyclus.Nuc.C111_texts_none",
    "Cyclus.Nuc.C111_element",
    "Cyclus.Nuc.C111_fluka_partial",
    "Cyclus.Nuc.C111_state_partial",
    "Cyclus.Nuc.C111_ensdf",
    "Cyclus.Nuc.C111_fails_mcnp",
    "Cyclus.Nuc.C111_fails_element",
    "Cyclus.Nuc.C111_fails_fluka",
    "Cyclus.Nuc.C111_fails_state",
    "Cyclus.Nuc.C111_fails_ensdf"
   ],
   "note": "Exact for ZZZAAAM, ZZZAAA, CINDER, SZA (undefined where the number is no int), Serpent, NIST and ALARA. False: MCNP numbers of states run over into the next element or lose the state; in the table of FLUKA the number of LITHIUM is octal by a leading zero, TRITIUM is hydrogen 4, and 239-PU, 99-TC and 241-AM are elements; id_to_state_id dereferences the end of the map before it is loaded, finds states of the next mass number, and 23 state ids do not lead back; ensdf_to_id takes U235 for element 105; iselement throws for numbers in no form."
  },
  {
   "property": "C112",
   "status": "partial",
   "theorems": [
    "Cyclus.JsonText.C112_terminates",
    "Cyclus.JsonText.C112_reads_partial",
    "Cyclus.JsonText.C112_big_partial",
    "Cyclus.JsonText.C112_last",
    "Cyclus.JsonText.C112_ordered",
    "Cyclus.JsonText.C112_fast_partial",
    "Cyclus.JsonText.C112_custom_partial",
    "Cyclus.JsonText.C112_same_partial",
    "Cyclus.JsonText.C112_fails_real",
    "Cyclus.JsonText.C112_fails_type",
    "Cyclus.JsonText.C112_fails_nul",
    "Cyclus.JsonText.C112_fails_inf",
    "Cyclus.JsonText.C112_fails_point",
    "Cyclus.JsonText.C112_fails_lax",
    "Cyclus.JsonText.C112_fails_tail",
    "Cyclus.JsonText.C112_fails_big",
    "Cyclus.JsonText.C112_fails_name",
    "Cyclus.JsonText.C112_fails_lone"
   ],
   "note": "Exact for documents whose integers fit 64 bits and whose names have no byte 0, and for values with finite doubles of at most 16 digits and strings without byte 0. False: doubles are written with 16 digits, so that neighbours become one, and from 10^15 on as text that is not JSON; signed integers above 2^31-1 come back unsigned; strings end at a byte 0, and names that agree up to it are one; -infinity is read as 0; some integers beyond 64 bits wrap around; a minus sign alone is 0, a token after a comment counts as a comma, text after the value is ignored, and a low surrogate alone is a character."
  },
  {
   "property": "C113",
   "status": "partial",
   "theorems": [
    "Cyclus.InfileGen.C113_alias",
    "Cyclus.InfileGen.C113_part",
    "Cyclus.InfileGen.C113_schema_total",
    "Cyclus.InfileGen.C113_schema",
    "Cyclus.InfileGen.C113_schema_class",
    "Cyclus.InfileGen.C113_proper_partial",
    "Cyclus.InfileGen.C113_reads_partial",
    "Cyclus.InfileGen.C113_class_partial",
    "Cyclus.InfileGen.C113_unique",
    "Cyclus.InfileGen.C113_basic",
    "Cyclus.InfileGen.C113_bool",
    "Cyclus.InfileGen.C113_literal",
    "Cyclus.InfileGen.C113_default",
    "Cyclus.InfileGen.C113_generates",
    "Cyclus.InfileGen.C113_declare",
    "Cyclus.InfileGen.C113_fails_bool",
    "Cyclus.InfileGen.C113_fails_empty",
    "Cyclus.InfileGen.C113_fails_vecmap",
    "Cyclus.InfileGen.C113_fails_pairpair",
    "Cyclus.InfileGen.C113_fails_local",
    "Cyclus.InfileGen.C113_fails_default",
    "Cyclus.InfileGen.C113_fails_nested",
    "Cyclus.InfileGen.C113_fails_temp",
    "Cyclus.InfileGen.C113_fails_internal"
   ],
   "note": "Exact for the schema; for reading when the leaves are texts that can be converted, the names of the variables are not those of local variables, and the types have no maps directly in vectors, sets or lists, and no pairs directly in pairs except in elements of containers. False: the truth value true is admitted and not read; empty leaves, comments and CDATA sections in leaves are admitted and not read; a vector of maps throws, a pair of pairs a default for a vector of vectors, and a variable x_tmp beside an internal x do not compile; a double with the name n is recorded as an integer; a default with a backslash is changed; a class with internal variables only has no valid schema."
  },
  {
   "property": "C114",
   "status": "partial",
   "theorems": [
    "Cyclus.CycppScan.C114_scopes",
    "Cyclus.CycppScan.C114_classes",
    "Cyclus.CycppScan.C114_vars_partial",
    "Cyclus.CycppScan.C114_alias_partial",
    "Cyclus.CycppScan.C114_ancestors",
    "Cyclus.CycppScan.C114_returns",
    "Cyclus.CycppScan.C114_known",
    "Cyclus.CycppScan.C114_origin_partial",
    "Cyclus.CycppScan.C114_meaning_partial",
    "Cyclus.CycppScan.C114_head_partial",
    "Cyclus.CycppScan.C114_fails_global",
    "Cyclus.CycppScan.C114_fails_leading",
    "Cyclus.CycppScan.C114_fails_circle",
    "Cyclus.CycppScan.C114_fails_self",
    "Cyclus.CycppScan.C114_fails_anonymous",
    "Cyclus.CycppScan.C114_fails_alias",
    "Cyclus.CycppScan.C114_fails_clash",
    "Cyclus.CycppScan.C114_fails_heads",
    "Cyclus.CycppScan.C114_close",
    "Cyclus.CycppScan.C114_unknown"
   ],
   "note": "Exact for the stacks, classes and ancestors; for state variables if names occur once and no alias is the name of a variable; for bases if no namespace is used, no alias is in force and no nearer class hides one of the very name; for heads without template bases. False: a class outside of all namespaces is preferred to a nearer one; a base with leading colons is lost or taken for a nearer class, so that a class can become its own parent and its first state variable ends in endless recursion, as does an alias that begins its own name; a class in a namespace without a name ends in an error; a variable whose name is an alias is lost; bases after final or after a template base are lost. Not shown: what names mean with aliases; canonize_type, the split into statements and the regular expressions other than those for class and namespace heads are not modelled."
  },
  {
   "property": "C115",
   "status": "partial",
   "theorems": [
    "Cyclus.CycppType.C115_sound",
    "Cyclus.CycppType.C115_bound",
    "Cyclus.CycppType.C115_fixed",
    "Cyclus.CycppType.C115_text",
    "Cyclus.CycppType.C115_canonical",
    "Cyclus.CycppType.C115_alias",
    "Cyclus.CycppType.C115_alias_template",
    "Cyclus.CycppType.C115_using_partial",
    "Cyclus.CycppType.C115_using_template_partial",
    "Cyclus.CycppType.C115_returns_partial",
    "Cyclus.CycppType.C115_fails_qualified",
    "Cyclus.CycppType.C115_fails_enclosing",
    "Cyclus.CycppType.C115_fails_nearer",
    "Cyclus.CycppType.C115_fails_returns",
    "Cyclus.CycppType.C115_fails_arity",
    "Cyclus.CycppType.C115_fails_template_alias",
    "Cyclus.CycppType.C115_fails_namespace_alias",
    "Cyclus.CycppType.C115_fails_colons"
   ],
   "note": "Exact for canonical types and for aliases; for namespaces used if names and namespaces are single identifiers and there are no aliases; the function returns if there are no aliases. False: a qualified name is not looked for in a namespace that has fewer parts, so that toolkit::ResBuf is rejected after using namespace cyclus; a type of the namespace around the class is rejected; a nearer class is taken for the type of the same name in a namespace used; using ::foo makes foo an alias of itself and the calls never end; the number of template arguments is not looked at; an alias of a template is accepted whatever it names; an alias of a namespace has no effect; white space around colons is rejected outside of templates. Not shown: lookup through nested namespaces."
  },
  {
   "property": "C116",
   "status": "partial",
   "theorems": [
    "Cyclus.CycppText.C116_cover",
    "Cyclus.CycppText.C116_nothing_lost",
    "Cyclus.CycppText.C116_split_partial",
    "Cyclus.CycppText.C116_says_partial",
    "Cyclus.CycppText.C116_quiet",
    "Cyclus.CycppText.C116_file_partial",
    "Cyclus.CycppText.C116_classes_partial",
    "Cyclus.CycppText.C116_fails_brace",
    "Cyclus.CycppText.C116_fails_access",
    "Cyclus.CycppText.C116_fails_tail",
    "Cyclus.CycppText.C116_fails_initial",
    "Cyclus.CycppText.C116_fails_lines",
    "Cyclus.CycppText.C116_fails_misspelled",
    "Cyclus.CycppText.C116_fails_prefix",
    "Cyclus.CycppText.C116_fails_pragma",
    "Cyclus.CycppText.C116_fails_using"
   ],
   "note": "Any text is covered by the matches. Exact for files of the pieces and the forms of statements that the specification lists: no brace or semicolon in a literal or within a line of code that is not its end, declarations of state variables without initial value and with their type on one line. False outside: a brace in a literal shifts all scopes after it; an access specifier directly after a brace swallows the pragma after it; text after the last separator is dropped; the name of a variable with initial value is the value; a type over two lines is cut; misspelled pragmas are passed over; types whose name begins with the letters of private, public, protected or namespace are passed over; another pragma between the pragma of a variable and its declaration is taken for the declaration; alias declarations make no alias. Characters are those of ASCII; exec and note pragmas are outside of the model."
  },
  {
   "property": "C117",
   "status": "partial",
   "theorems": [
    "Cyclus.CycppGen.C117_file",
    "Cyclus.CycppGen.C117_pieces",
    "Cyclus.CycppGen.C117_unchanged_cut",
    "Cyclus.CycppGen.C117_unchanged",
    "Cyclus.CycppGen.C117_words",
    "Cyclus.CycppGen.C117_directive",
    "Cyclus.CycppGen.C117_default_partial",
    "Cyclus.CycppGen.C117_var",
    "Cyclus.CycppGen.C117_owner",
    "Cyclus.CycppGen.C117_order",
    "Cyclus.CycppGen.C117_fails_default",
    "Cyclus.CycppGen.C117_fails_blank",
    "Cyclus.CycppGen.C117_fails_brace",
    "Cyclus.CycppGen.C117_fails_tail",
    "Cyclus.CycppGen.C117_fails_misspelled"
   ],
   "note": "Exact for texts whose braces are balanced, also within pragmas, up to the white space before a comment at the begin of a statement and the text after the last separator. False outside: the pragma without a method is left as it is, without a message, if it directly follows a comment line or another directive; a blank after a directive or a second blank before the name of a class makes the class unknown; a brace in the dictionary of a state variable moves all that follows one level down; text after the last separator is lost; misspelled directives are kept in most places. The bodies of the methods are arbitrary here. Characters are those of ASCII."
  },
  {
   "property": "C118",
   "status": "partial",
   "theorems": [
    "Cyclus.CycppLine.C118_kept",
    "Cyclus.CycppLine.C118_numbers",
    "Cyclus.CycppLine.C118_matched",
    "Cyclus.CycppLine.C118_lines",
    "Cyclus.CycppLine.C118_continued",
    "Cyclus.CycppLine.C118_unchanged",
    "Cyclus.CycppLine.C118_fails_comment",
    "Cyclus.CycppLine.C118_fails_form_feed",
    "Cyclus.CycppLine.C118_fails_end",
    "Cyclus.CycppLine.C118_fails_name"
   ],
   "note": "Exact for blocks that do not begin within a comment and lines without the other characters at which Python breaks lines. False outside: the third pass drops the white space before a comment (C117), so its first line is joined to the line before and the next block begins within the comment, where a directive has no effect; a form feed counts as the end of a line and is replaced by a line feed; the line feed at the end of the file is lost; the name of the file is not escaped. The matching blocks of difflib are arbitrary."
  },
  {
   "property": "C119",
   "status": "partial",
   "theorems": [
    "Cyclus.PyInfile.C119_parts",
    "Cyclus.PyInfile.C119_reads",
    "Cyclus.PyInfile.C119_same",
    "Cyclus.PyInfile.C119_default",
    "Cyclus.PyInfile.C119_numbers",
    "Cyclus.PyInfile.C119_class_partial",
    "Cyclus.PyInfile.C119_row_same",
    "Cyclus.PyInfile.C119_row",
    "Cyclus.PyInfile.C119_required",
    "Cyclus.PyInfile.C119_names",
    "Cyclus.PyInfile.C119_hash",
    "Cyclus.PyInfile.C119_set_path",
    "Cyclus.PyInfile.C119_fails_nested",
    "Cyclus.PyInfile.C119_fails_map",
    "Cyclus.PyInfile.C119_fails_blob",
    "Cyclus.PyInfile.C119_fails_nuclide",
    "Cyclus.PyInfile.C119_fails_null"
   ],
   "note": "Exact for the types that the readers of Python can handle: primitive types but blobs and UUIDs, containers and maps of these, and pairs of all these. False outside: a container whose elements are containers, pairs or maps raises an exception as soon as it has an element, since the names of the inner elements are lost; a map with such keys or values looks for them outside the item; blobs and UUIDs raise a TypeError; a nuclide named as a default is not converted, so that no row is recorded where the generated C++ records the nuclide; a default text is cut at a null character. Schemas, and the state variables themselves (how they are found on a class), are not part of the claim."
  },
  {
   "property": "C120",
   "status": "partial",
   "theorems": [
    "Cyclus.PyAgent.C120_class",
    "Cyclus.PyAgent.C120_same",
    "Cyclus.PyAgent.C120_order",
    "Cyclus.PyAgent.C120_starts",
    "Cyclus.PyAgent.C120_zero",
    "Cyclus.PyAgent.C120_set",
    "Cyclus.PyAgent.C120_clone",
    "Cyclus.PyAgent.C120_copied",
    "Cyclus.PyAgent.C120_snapshot",
    "Cyclus.PyAgent.C120_restart",
    "Cyclus.PyAgent.C120_fails_subclass",
    "Cyclus.PyAgent.C120_fails_own",
    "Cyclus.PyAgent.C120_fails_own_witness",
    "Cyclus.PyAgent.C120_fails_order",
    "Cyclus.PyAgent.C120_fails_pair",
    "Cyclus.PyAgent.C120_fails_annotations",
    "Cyclus.PyAgent.C120_fails_rows"
   ],
   "note": "Exact for a class whose first agent is made before any of an ancestor, from then on and for all later histories, if no variable is declared under two names. False otherwise: the attribute that holds the gathered variables is inherited, so that after an agent of an ancestor the agents of a subclass get the variables of an ancestor only, and reading a variable of the subclass raises a KeyError. The order of variables can differ from that of the declarations when classes share some. A pair without a default starts as (None, None), which cannot be recorded. The annotations of a class with state variables raise a ValueError. A restart from an empty table reads beyond its end. Blobs and UUIDs are not modelled as values of Python, nor is sharing of values between a class and its agents."
  },
  {
   "property": "C121",
   "status": "partial",
   "theorems": [
    "Cyclus.PyInv.C121_empty",
    "Cyclus.PyInv.C121_init_none",
    "Cyclus.PyInv.C121_push",
    "Cyclus.PyInv.C121_capacity",
    "Cyclus.PyInv.C121_says",
    "Cyclus.PyInv.C121_negative",
    "Cyclus.PyInv.C121_clone",
    "Cyclus.PyInv.C121_fails_snapshot",
    "Cyclus.PyInv.C121_fails_recorded",
    "Cyclus.PyInv.C121_fails_lost",
    "Cyclus.PyInv.C121_fails_map",
    "Cyclus.PyInv.C121_fails_restart",
    "Cyclus.PyInv.C121_fails_init",
    "Cyclus.PyInv.C121_fails_init_map",
    "Cyclus.PyInv.C121_init_maps",
    "Cyclus.PyInv.C121_sink_buffer",
    "Cyclus.PyInv.C121_fails_sink",
    "Cyclus.PyInv.C121_fails_clone"
   ],
   "note": "Holds for capacities and for clones, and for snapshots of empty inventories. False for contents: the conversion to C++ never stores anything, so that no resource is recorded; a buffer that holds something is emptied, and pushing the resources back raises a TypeError, since they come back as plain resources; a map gets a second entry for its last resource under the default key; buffers that are started again take no resources, and maps only the last one. The inventory of a sink is a wrapper without a buffer, so that sinks accept nothing. A map whose capacity was not set makes a clone raise an AttributeError. What C++ does after an exception of Python is not modelled."
  },
  {
   "property": "C122",
   "status": "partial",
   "theorems": [
    "Cyclus.PyTrade.Props.C122_requests",
    "Cyclus.PyTrade.Props.C122_plain",
    "Cyclus.PyTrade.Props.C122_pairs",
    "Cyclus.PyTrade.Props.C122_pairs_repeated",
    "Cyclus.PyTrade.Props.C122_pairs_error",
    "Cyclus.PyTrade.Props.C122_many",
    "Cyclus.PyTrade.Props.C122_only_resources",
    "Cyclus.PyTrade.Props.C122_only_resources_plain",
    "Cyclus.PyTrade.Props.C122_bids",
    "Cyclus.PyTrade.Props.C122_many_bids",
    "Cyclus.PyTrade.Props.C122_preference_partial",
    "Cyclus.PyTrade.Props.C122_fails_forms",
    "Cyclus.PyTrade.Props.C122_fails_forms_error",
    "Cyclus.PyTrade.Props.C122_fails_names_index",
    "Cyclus.PyTrade.Props.C122_fails_names_preference",
    "Cyclus.PyTrade.Props.C122_fails_plain_preference",
    "Cyclus.PyTrade.Props.C122_fails_plain_constraints",
    "Cyclus.PyTrade.Props.C122_fails_dict",
    "Cyclus.PyTrade.Props.C122_fails_empty",
    "Cyclus.PyTrade.Props.C122_fails_kind",
    "Cyclus.PyTrade.Props.C122_fails_none",
    "Cyclus.PyTrade.Props.C122_fails_preference_value",
    "Cyclus.PyTrade.Props.C122_fails_preference",
    "Cyclus.PyTrade.Props.C122_fails_pair",
    "Cyclus.PyTrade.Props.C122_fails_missing",
    "Cyclus.PyTrade.Props.C122_bids_tuples",
    "Cyclus.PyTrade.Props.C122_fails_bid_kind",
    "Cyclus.PyTrade.Props.C122_bids_capacity"
   ],
   "note": "Holds for commodities with one name whose value is a resource, and for all forms of bids. False otherwise: a dict or a list as the value of a name raises TypeError, since it is assigned to an element of a list under a string; with several names in a commodity the preference is looked up at the wrong place or past the end; without the key commodities a preference is dropped and a constraint taken for a commodity; a portfolio without commodities has the quantity 0/0; a bid without a preference is worth 1 and not what the requester said. Resources of the wrong class, and missing requests or offers, are cast unchecked. Generators are not modelled."
  },
  {
   "property": "C123",
   "status": "partial",
   "theorems": [
    "Cyclus.PyPrefs.Props.C123_effect",
    "Cyclus.PyPrefs.Props.C123_first",
    "Cyclus.PyPrefs.Props.C123_chain",
    "Cyclus.PyPrefs.Props.C123_all",
    "Cyclus.PyPrefs.Props.C123_requests",
    "Cyclus.PyPrefs.Props.C123_requests_shared",
    "Cyclus.PyPrefs.Props.C123_commodity_partial",
    "Cyclus.PyPrefs.Props.C123_fails_cpp",
    "Cyclus.PyPrefs.Props.C123_fails_cpp_value",
    "Cyclus.PyPrefs.Props.C123_fails_wrappers",
    "Cyclus.PyPrefs.Props.C123_fails_inplace",
    "Cyclus.PyPrefs.Props.C123_fails_reuse",
    "Cyclus.PyPrefs.Props.C123_fails_commodity",
    "Cyclus.PyPrefs.Props.C123_new_objects"
   ],
   "note": "Holds for each trader if agents written in C++ adjust preferences only before the first agent written in Python, the agents written in Python leave the dict alone and use its keys, and the time and address of the map were not used before. False otherwise: after an agent written in C++ the next one written in Python sees and writes back old values; keys made by an agent appear beside the old ones; changes to the dict itself are seen by later agents in Python and nobody else; a map at an address used before at the same time is not looked at. The commodity of a bid is None unless the commodity of its request was read before."
  },
  {
   "property": "C124",
   "status": "partial",
   "theorems": [
    "Cyclus.PostCython.Props.C124_process",
    "Cyclus.PostCython.Props.C124_unmarked",
    "Cyclus.PostCython.Props.C124_no_version",
    "Cyclus.PostCython.Props.C124_no_arguments",
    "Cyclus.PostCython.Props.C124_repeated_line",
    "Cyclus.PostCython.Props.C124_not_any_names",
    "Cyclus.PostCython.Props.C124_broken_name"
   ],
   "note": "Holds if no argument name is a part of another word of the base calls or of the C++ name of an earlier argument, every mark is in the line that Cython compiles, and every marked constructor has arguments. False otherwise: `y` as second argument breaks the C++ name of the first, because Cython's prefix for arguments has a y; a marked constructor without arguments is an AttributeError; a mark in a line that Cython only repeats puts a colon without bases after the next arguments. A file without a version in its first line is an error even if there are no marks."
  },
  {
   "property": "C125",
   "status": "partial",
   "theorems": [
    "Cyclus.PyExec.C125_given",
    "Cyclus.PyExec.C125_responses",
    "Cyclus.PyExec.C125_all",
    "Cyclus.PyExec.C125_executed",
    "Cyclus.PyExec.C125_repeated",
    "Cyclus.PyExec.C125_fails_shipments",
    "Cyclus.PyExec.C125_fails_unchecked",
    "Cyclus.PyExec.C125_fails_kept",
    "Cyclus.PyExec.C125_errors",
    "Cyclus.PyExec.C125_silent",
    "Cyclus.PyExec.C125_accept",
    "Cyclus.PyExec.C125_sink_accepts",
    "Cyclus.PyExec.C125_source_bids",
    "Cyclus.PyExec.C125_source_idle",
    "Cyclus.PyExec.C125_source_trades",
    "Cyclus.PyExec.C125_sink_requests",
    "Cyclus.PyExec.C125_room_partial",
    "Cyclus.PyExec.C125_fails_room",
    "Cyclus.PyExec.C125_fails_capacity",
    "Cyclus.PyExec.C125_fails_shut"
   ],
   "note": "Trades answered once become responses and are delivered. False where a trade is answered in two shipments (the first is lost, without an exception), where an entry is not a living trade with a resource of the right kind (undefined behaviour in place of an exception; a trade kept for a later step is such an entry). The sink ignores max_inv_size and requests its capacity twice in each step, as material and as product; with capacity zero its portfolio has NaN coefficients."
  },
  {
   "property": "C126",
   "status": "partial",
   "theorems": [
    "Cyclus.PyJson.Props.C126_converts",
    "Cyclus.PyJson.Props.C126_fails_modern",
    "Cyclus.PyJson.Props.C126_means",
    "Cyclus.PyJson.Props.C126_fails_nul",
    "Cyclus.PyJson.Props.C126_fails_int",
    "Cyclus.PyJson.Props.C126_read",
    "Cyclus.PyJson.Props.C126_fails_unread",
    "Cyclus.PyJson.Props.C126_list_get",
    "Cyclus.PyJson.Props.C126_list_set",
    "Cyclus.PyJson.Props.C126_list_del",
    "Cyclus.PyJson.Props.C126_slice_get",
    "Cyclus.PyJson.Props.C126_slice_del",
    "Cyclus.PyJson.Props.C126_slice_set_partial",
    "Cyclus.PyJson.Props.C126_fails_slice",
    "Cyclus.PyJson.Props.C126_append",
    "Cyclus.PyJson.Props.C126_fails_append",
    "Cyclus.PyJson.Props.C126_extend",
    "Cyclus.PyJson.Props.C126_insert_partial",
    "Cyclus.PyJson.Props.C126_fails_insert",
    "Cyclus.PyJson.Props.C126_reverse",
    "Cyclus.PyJson.Props.C126_index",
    "Cyclus.PyJson.Props.C126_count",
    "Cyclus.PyJson.Props.C126_none",
    "Cyclus.PyJson.Props.C126_remove",
    "Cyclus.PyJson.Props.C126_fails_in",
    "Cyclus.PyJson.Props.C126_pop_partial",
    "Cyclus.PyJson.Props.C126_fails_pop",
    "Cyclus.PyJson.Props.C126_dict_get",
    "Cyclus.PyJson.Props.C126_fails_read",
    "Cyclus.PyJson.Props.C126_dict_set",
    "Cyclus.PyJson.Props.C126_fails_assign",
    "Cyclus.PyJson.Props.C126_dict_kept",
    "Cyclus.PyJson.Props.C126_dict_del",
    "Cyclus.PyJson.Props.C126_dict_keys",
    "Cyclus.PyJson.Props.C126_setdefault",
    "Cyclus.PyJson.Props.C126_update",
    "Cyclus.PyJson.Props.C126_fails_popkey",
    "Cyclus.PyJson.Props.C126_popkey",
    "Cyclus.PyJson.Props.C126_fails_file",
    "Cyclus.PyJson.Props.C126_parse",
    "Cyclus.PyJson.Props.C126_fails_parse",
    "Cyclus.PyJson.Props.C126_str_partial",
    "Cyclus.PyJson.Props.C126_fails_str"
   ],
   "note": "False where: Python is 3.10 or later (no list, number, bool or None can be converted); a string holds the byte 0; a slice takes values of another number; an insert is at the end or beyond (IndexError, and a null is added); pop takes an array or an object (what is returned shows the next item or freed memory) or a missing key; a missing key is read (None, and the key is added); a value cannot be converted (append and assignment leave a null behind); in and index disagree; a file is parsed (AttributeError) or a text that is not JSON (no error); str of a string with special characters."
  },
  {
   "property": "C127",
   "status": "partial",
   "theorems": [
    "Cyclus.MockSim.Props.C127_configuration",
    "Cyclus.MockSim.Props.C127_names",
    "Cyclus.MockSim.Props.C127_prototype_partial",
    "Cyclus.MockSim.Props.C127_dummy_partial",
    "Cyclus.MockSim.Props.C127_lives_partial",
    "Cyclus.MockSim.Props.C127_past",
    "Cyclus.MockSim.Props.C127_fails_capacity",
    "Cyclus.MockSim.Props.C127_fails_dummy",
    "Cyclus.MockSim.Props.C127_fails_zero",
    "Cyclus.MockSim.Props.C127_fails_start",
    "Cyclus.MockSim.Props.C127_fails_tested"
   ],
   "note": "False where: a capacity has more than six significant digits (rounded); DummyProto is given a commodity (ignored, the commodity is always the word commod); a lifetime is 0 (like 1 for an agent that starts at once, otherwise the simulation ends with an error); the start is -1 (means step 1); the agent under test does not schedule its own decommissioning (its lifetime has no effect)."
  },
  {
   "property": "C128",
   "status": "partial",
   "theorems": [
    "Cyclus.Prog.Props.C128_best",
    "Cyclus.Prog.Props.C128_type",
    "Cyclus.Prog.Props.C128_refused",
    "Cyclus.Prog.Props.C128_null",
    "Cyclus.Prog.Props.C128_stopped",
    "Cyclus.Prog.Props.C128_forgets",
    "Cyclus.Prog.Props.C128_greedy_partial",
    "Cyclus.Prog.Props.C128_ends",
    "Cyclus.Prog.Props.C128_fails_greedy"
   ],
   "note": "All of it is proved but for the comparison with the greedy solver, which is false in general: the greedy solver does not look at exclusive groups and may sell one offer twice, for a lower objective. It is proved where the matches of the greedy solver are admissible. The libraries are assumed to find an optimal solution where there is one; that there is one is proved, by elimination of variables."
  },
  {
   "property": "C129",
   "status": "partial",
   "theorems": [
    "Cyclus.AnyHold.Props.C129_values",
    "Cyclus.AnyHold.Props.C129_memory",
    "Cyclus.AnyHold.Props.C129_freed_partial",
    "Cyclus.AnyHold.Props.C129_fails_leak",
    "Cyclus.AnyHold.Props.C129_fails_chars",
    "Cyclus.AnyHold.Props.C129_fails_alias"
   ],
   "note": "False where a value is assigned over a value of more than 8 bytes and is of the same type or has at most 8 bytes itself: the old memory is never freed (the exact number of blocks lost is proved). Also false for the constructor from const char*, which writes a std::string over an 8-byte pointer, and for a = a.cast<T>(), which reads the value after destroying it; nothing in the repository does these two. Everything else is proved."
  },
  {
   "property": "C130",
   "status": "partial",
   "theorems": [
    "Cyclus.PyDb.Props.C130_record",
    "Cyclus.PyDb.Props.C130_data",
    "Cyclus.PyDb.Props.C130_fields",
    "Cyclus.PyDb.Props.C130_lasting_partial",
    "Cyclus.PyDb.Props.C130_single_partial",
    "Cyclus.PyDb.Props.C130_fails_names",
    "Cyclus.PyDb.Props.C130_fails_half",
    "Cyclus.PyDb.Props.C130_fails_full",
    "Cyclus.PyDb.Props.C130_raises",
    "Cyclus.PyDb.Props.C130_errors",
    "Cyclus.PyDb.Props.C130_back",
    "Cyclus.PyDb.Props.C130_query",
    "Cyclus.PyDb.Props.C130_refuses",
    "Cyclus.PyDb.Props.C130_tables",
    "Cyclus.PyDb.Props.C130_fails_tables"
   ],
   "note": "False for field names given as text of two or more bytes: record() lets go of the encoded names, while the backends for SQLite and HDF5 read them through the pointer at the flush (proved for every buffer of at least two). The names are right for bytes objects kept by the caller, names of one byte, a buffer of one, and always for backends that use the copies (fields()). A datum whose construction raised is passed on nevertheless, and if it took the last place the next one is written beyond the buffer. tables remembers its first answer. Everything else is proved."
  },
  {
   "property": "C131",
   "status": "partial",
   "theorems": [
    "Cyclus.Styled.Props.C131_layout",
    "Cyclus.Styled.Props.C131_reads_partial",
    "Cyclus.Styled.Props.C131_same_partial",
    "Cyclus.Styled.Props.C131_str_partial",
    "Cyclus.Styled.Props.C131_text",
    "Cyclus.Styled.Props.C131_fails_str",
    "Cyclus.Styled.Props.C131_fails_real"
   ],
   "note": "The layout is proved in full. Reading back gives the value with doubles rounded to 16 digits and integer types by size (as for the other writers, C112); two doubles are written in the same way. str() of a string gives the escaped text, not the string. Values with comments are not modelled."
  },
  {
   "property": "C132",
   "status": "partial",
   "theorems": [
    "Cyclus.DynMod.C132_make_partial",
    "Cyclus.DynMod.C132_registered",
    "Cyclus.DynMod.C132_again",
    "Cyclus.DynMod.C132_exists",
    "Cyclus.DynMod.C132_makable_partial",
    "Cyclus.DynMod.C132_python_partial",
    "Cyclus.DynMod.C132_open_partial",
    "Cyclus.DynMod.C132_close_partial",
    "Cyclus.DynMod.C132_closed",
    "Cyclus.DynMod.C132_discover_partial",
    "Cyclus.DynMod.C132_fails_colon",
    "Cyclus.DynMod.C132_fails_class",
    "Cyclus.DynMod.C132_fails_open",
    "Cyclus.DynMod.C132_fails_discovery",
    "Cyclus.DynMod.C132_fails_python",
    "Cyclus.DynMod.C132_fails_close",
    "Cyclus.DynMod.C132_fails_discover"
   ],
   "note": "Proved for specs without colons in their fields. The code violates the rest: specs that differ in which field a colon belongs to share a module; a Python module without the class passes Exists but ends the program in Make (null pointer); Exists, discovery and failed calls of Make leave the library open for ever; IsPyAgent uses a null pointer for every spec that exists and was not used before; after a failed dlclose deleted modules stay in the map; discovery in a directory with a colon throws ValueError."
  },
  {
   "property": "C133",
   "status": "partial",
   "theorems": [
    "Cyclus.PyLife.C133_safe_partial",
    "Cyclus.PyLife.C133_alive_partial",
    "Cyclus.PyLife.C133_same_partial",
    "Cyclus.PyLife.C133_freed_partial",
    "Cyclus.PyLife.C133_delete_partial",
    "Cyclus.PyLife.C133_annotations_partial",
    "Cyclus.PyLife.C133_fails_double",
    "Cyclus.PyLife.C133_fails_same",
    "Cyclus.PyLife.C133_fails_stale",
    "Cyclus.PyLife.C133_fails_clear",
    "Cyclus.PyLife.C133_clear",
    "Cyclus.PyLife.C133_fails_use",
    "Cyclus.PyLife.C133_fails_orphan",
    "Cyclus.PyLife.C133_fails_annotations"
   ],
   "note": "Proved for agents that simulations make. The code violates the rest: an object made by calling the class is deleted twice after del_agent, and is given to Python as another object; clearing the cache while agents live, and using an object after its agent was deleted, use freed memory; every region, institution and facility in Python is two agents because the base class has already made one; annotations are empty from the second reading on."
  },
  {
   "property": "C134",
   "status": "partial",
   "theorems": [
    "Cyclus.PyMain.C134_main",
    "Cyclus.PyMain.C134_load",
    "Cyclus.PyMain.C134_memory",
    "Cyclus.PyMain.C134_extension",
    "Cyclus.PyMain.C134_success",
    "Cyclus.PyMain.C134_display",
    "Cyclus.PyMain.C134_input_partial",
    "Cyclus.PyMain.C134_fails_input",
    "Cyclus.PyMain.C134_no_input",
    "Cyclus.PyMain.C134_fails_created",
    "Cyclus.PyMain.C134_fails_extension",
    "Cyclus.PyMain.C134_fails_order",
    "Cyclus.PyMain.C134_too_many",
    "Cyclus.PyMain.C134_default_partial",
    "Cyclus.PyMain.C134_default_text",
    "Cyclus.PyMain.C134_fails_default",
    "Cyclus.PyMain.C134_run",
    "Cyclus.PyMain.C134_fails_del",
    "Cyclus.PyMain.C134_fails_reload",
    "Cyclus.PyMain.C134_once"
   ],
   "note": "Proved for all arguments, with inputs given as the positional argument and default outputs of inputs whose names have another character than dots. The code violates the rest: --input-file is overwritten by the default of the positional argument, so nothing runs and nothing is said; a default output for a name of dots has no extension; other extensions than .h5 and .sqlite are refused; the output is opened although the input cannot be read; what --rng-schema and --schema print depends on later options; a state that is loaded again keeps falling back on the old file; a state that was not loaded fails when it is deleted."
  },
  {
   "property": "C135",
   "status": "partial",
   "theorems": [
    "Cyclus.PySource.C135_value_partial",
    "Cyclus.PySource.C135_fails_nul",
    "Cyclus.PySource.C135_first",
    "Cyclus.PySource.C135_none",
    "Cyclus.PySource.C135_fails_error",
    "Cyclus.PySource.C135_back_partial",
    "Cyclus.PySource.C135_fails_back",
    "Cyclus.PySource.C135_file",
    "Cyclus.PySource.C135_missing",
    "Cyclus.PySource.C135_text",
    "Cyclus.PySource.C135_xml",
    "Cyclus.PySource.C135_fails_format",
    "Cyclus.PySource.C135_fails_path",
    "Cyclus.PySource.C135_raw_partial",
    "Cyclus.PySource.C135_fails_raw"
   ],
   "note": "Proved for texts without a character 0, for objects in JSON, for the formats none, json, py and xml, and for raw texts without a format. The code violates the rest: texts are cut at a character 0; every exception in a Python file arrives in C++ as an empty text; JSON whose top is a list is converted to Python that is not an input; a raw text with a format is replaced by the empty text; unknown formats are taken for XML; with a format the path of a file is converted instead of the file."
  },
  {
   "property": "C136",
   "status": "partial",
   "theorems": [
    "Cyclus.PyLoop.C136_pairs_partial",
    "Cyclus.PyLoop.C136_steps_partial",
    "Cyclus.PyLoop.C136_flush",
    "Cyclus.PyLoop.C136_params",
    "Cyclus.PyLoop.C136_stop",
    "Cyclus.PyLoop.C136_fails_unbound",
    "Cyclus.PyLoop.C136_fails_params",
    "Cyclus.PyLoop.C136_fails_text",
    "Cyclus.PyLoop.C136_fails_monitor",
    "Cyclus.PyLoop.C136_fails_rest",
    "Cyclus.PyLoop.C136_interp_partial",
    "Cyclus.PyLoop.C136_unused",
    "Cyclus.PyLoop.C136_fails_return",
    "Cyclus.PyLoop.C136_fails_stop",
    "Cyclus.PyLoop.C136_fails_again"
   ],
   "note": "Proved for actions that bring their parameters, and for starts and stops that are nested. The code violates the rest: a plain callable fails if it comes first (its parameters are not bound) and otherwise gets the parameters of the action before it; an action by its name alone is taken apart into characters and fails; monitor actions are not found; one bad action stops those after it in every step; a command that returns early never finalises the interpreter; one stop too many finalises it before the exit, again at the exit, and it is never initialised again."
  },
  {
   "property": "C137",
   "status": "partial",
   "theorems": [
    "Cyclus.EnvPaths.C137_found",
    "Cyclus.EnvPaths.C137_fixed",
    "Cyclus.EnvPaths.C137_once",
    "Cyclus.EnvPaths.C137_fails_relative",
    "Cyclus.EnvPaths.C137_schema",
    "Cyclus.EnvPaths.C137_fails_message",
    "Cyclus.EnvPaths.C137_fails_flat",
    "Cyclus.EnvPaths.C137_milps",
    "Cyclus.EnvPaths.C137_split",
    "Cyclus.EnvPaths.C137_empty",
    "Cyclus.EnvPaths.C137_fails_trailing",
    "Cyclus.EnvPaths.C137_base_partial",
    "Cyclus.EnvPaths.C137_fails_base",
    "Cyclus.EnvPaths.C137_set_partial",
    "Cyclus.EnvPaths.C137_fails_set"
   ],
   "note": "Proved for all environments, for paths with a slash and for nuclear data that exist. The code violates the rest: a program found through a relative path is ignored; the message for a missing schema names the other schema; the variable replaces the flat schema and the other alike; an empty item at the end of a list of paths is lost; a path without a slash is its own base; a missing file of nuclear data stays set after the exception."
  },
  {
   "property": "C138",
   "status": "partial",
   "theorems": [
    "Cyclus.Validator.C138_accept",
    "Cyclus.Validator.C138_reject",
    "Cyclus.Validator.C138_freed",
    "Cyclus.Validator.C138_fails_result",
    "Cyclus.Validator.C138_fails_leak",
    "Cyclus.Validator.C138_check",
    "Cyclus.Validator.C138_text",
    "Cyclus.Validator.C138_kind_partial",
    "Cyclus.Validator.C138_fails_kind",
    "Cyclus.Validator.C138_fails_null"
   ],
   "note": "Proved for all sequences of calls if contexts can be made; that rejections are errors for validation is proved for documents whose included files can be read. The code violates the rest: Validate returns false for every valid document; the contexts in which schemas are parsed are never freed; a parser that is used after its text could not be parsed dereferences a null pointer; errors of included files are exceptions of libxml++."
  },
  {
   "property": "C139",
   "status": "partial",
   "theorems": [
    "Cyclus.ProgDiff.C139_zero",
    "Cyclus.ProgDiff.C139_symm",
    "Cyclus.ProgDiff.C139_refl",
    "Cyclus.ProgDiff.C139_size",
    "Cyclus.ProgDiff.C139_kinds",
    "Cyclus.ProgDiff.C139_matrix",
    "Cyclus.ProgDiff.C139_count",
    "Cyclus.ProgDiff.C139_fails_names",
    "Cyclus.ProgDiff.C139_fails_code",
    "Cyclus.ProgDiff.C139_fails_trans"
   ],
   "note": "Proved: the result is 0 exactly for programs that are the same up to the tolerance; order; reflexivity; what the codes 1000, 1001, 1002, 100 and 200 stand for, and that differences of bounds count once. The code violates the rest: names are never compared; the same code can stand for other differences; being the same is not transitive because of the tolerance."
  },
  {
   "property": "C140",
   "status": "partial",
   "theorems": [
    "Cyclus.StateTables.C140_archetype",
    "Cyclus.StateTables.C140_base_partial",
    "Cyclus.StateTables.C140_prototype",
    "Cyclus.StateTables.C140_inventory_partial",
    "Cyclus.StateTables.C140_titles",
    "Cyclus.StateTables.C140_fails_share",
    "Cyclus.StateTables.C140_fails_titles",
    "Cyclus.StateTables.C140_fails_twice",
    "Cyclus.StateTables.C140_fails_colon"
   ],
   "note": "Proved for all records in which each number belongs to one agent and the class Agent uses titles without an underscore, as in the code. The code violates the rest: archetypes whose paths differ in a dash or underscore share tables, as do archetypes one of whose names begins with the other; an agent that is recorded twice in one time step reads everything twice; archetypes whose path has a colon cannot record their state."
  },
  {
   "property": "C141",
   "status": "partial",
   "theorems": [
    "Cyclus.Stub.C141_insert",
    "Cyclus.Stub.C141_insert_none",
    "Cyclus.Stub.C141_unchanged",
    "Cyclus.Stub.C141_read",
    "Cyclus.Stub.C141_library",
    "Cyclus.Stub.C141_all",
    "Cyclus.Stub.C141_files",
    "Cyclus.Stub.C141_keeps_false",
    "Cyclus.Stub.C141_tests_false",
    "Cyclus.Stub.C141_keeps_partial",
    "Cyclus.Stub.C141_apart_partial",
    "Cyclus.Stub.C141_once_false",
    "Cyclus.Stub.C141_noname_false"
   ],
   "note": "Proved for libraries with a name, whatever fromcapcase and the stubs are. The code violates the rest: an archetype that is entered again is listed twice and its sources are overwritten; the tests of an archetype a are overwritten by an archetype a_tests; a project of a library without a name takes no further archetype, since its first line then has two double colons."
  }
 ]
}
