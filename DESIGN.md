# Formal model of cyclus: design

Source: `/repo` (cyclus/cyclus at the pinned commit), read as text; nothing was built or run.
The model is Lean 4 (`/verif/lean`, `lake build`).

## Layout

* `lean/Verif/Model/*.lean` - the models.  Every definition cites the source lines it models and
  states its simplifications.
* `lean/Verif/Spec/*.lean` - vocabulary of the properties that lemmas need as well.
* `lean/Verif/Lemmas/*.lean` - helper lemmas.
* `lean/Verif/Props/*.lean` - specifications and property theorems.  Specifications are stated in
  terms of inputs and outputs; next to each theorem an `example` shows that its hypotheses can be
  met.
* `properties.jsonl` - the properties; `MANIFEST.json` - status and theorems of each;
  `seeded/LOG.jsonl` - mutants of the model and the theorems that failed.

A theorem `Cnn_..._partial` covers part of property Cnn, and the text before it says what is
missing.  A theorem `Cnn_fails...` proves that the code contradicts the property, with a witness.

## Trusted base

* The Lean 4.33.0 kernel and the definitions of core Lean and Mathlib.
* Axioms: at most `propext`, `Classical.choice`, `Quot.sound`; the last section lists them for each
  theorem.
* The reading of the source: the theorems are about the model, and the link to the code is the
  citation beside each definition.

Global simplifications:

* `double` is modelled by the rationals, or the reals where logarithms or continuity are needed:
  exact arithmetic.  Rounding and signed zero are outside the model.  Infinity and NaN are explicit
  where code divides by what may be zero or compares with them.  `std::numeric_limits<double>::max()`
  and the tolerances `eps()`, `eps_rsrc()` are arbitrary parameters.
* `int` is modelled by `Int` or `Nat` unless a property is about overflow.
* Pointers are natural numbers; an address is not reused.  Undefined behaviour (NULL or dangling
  pointers, uninitialised variables, changing a container under an iterator) is the value `none`.
* Exceptions are values (`Except Err`), or a final state with an error where the state reached
  matters.
* Random draws are arbitrary streams or arguments.  What agents, traders and solvers of others do
  is an arbitrary function.
* Ordered maps and sets keyed by pointers iterate in an arbitrary order, which is a parameter or
  is proved irrelevant.
* Loops that need not end have fuel; running out of it is `none`.
* Logging is dropped.

## Parts of the code that are modelled

Per model file: the sources it cites.  Every definition in the file cites its lines.

* `Model/Agent.lean`: `agent.cc` 19-25, 59-70, 72-94, 108-113, 115-127, 129-137, 139-147, 149-164, 166-168, 170-180, 182-191, 207-236; `agent.h` 405-409, 463-495; `context.cc` 103-112, 115-122; `context.h` 360-363, 366-369, 371-386; `facility.cc` 31-35, 46-54; `institution.cc` 39-41, 43-46, 48-61; `region.cc` 28-30, 32-35
* `Model/AnyHold.lean`: 
* `Model/Archetypes.lean`: `bid_portfolio.h` 56-70; `context.cc` 197-202; `cyc_limits.h.in` 24-26; `k_facility.cc` 41-56, 59-69, 72-77, 80-109, 112-139, 142-190, 193-212; `k_facility.h` 126, 131-229; `material.cc` 277-280; `predator.cc` 19-36, 38-60, 62-74, 88-99, 101-115; `predator.h` 57-170; `prey.cc` 33-41, 43-57, 59-84, 86-114; `prey.h` 55-110; `sink.cc` 14-44, 46-73, 75-93; `sink.h` 78-117; `source.cc` 32-41, 43-71, 73-105; `source.h` 90-123
* `Model/Basic.lean`: `error.h` 11-72
* `Model/BuyPolicy.lean`: `matl_buy_policy.cc` 16-30, 37-48, 61-74, 76-90, 92-95, 97-100, 102-105, 117-147, 278-321, 323-345, 347-358, 360-384, 390-401; `matl_buy_policy.h` 182-187, 190-204, 217-219, 221, 255-269; `res_buf.h` 74, 111, 116; `total_inv_tracker.h` 43, 54-64, 68-75, 80-82, 86-93, 99, 103-105, 112-118, 123-131, 133-138, 141-143
* `Model/Cli.lean`: `cyclus.cc` 57-237, 240-287, 309-495; `recorder.h` 21; `sim_init.cc` 34
* `Model/Commodity.lean`: `building_manager.cc` 16-28, 30-61, 70-71, 80-92; `building_manager.h` 20-25; `commodity_producer.cc` 33-42; `commodity_producer.h` 14-20, 32-34, 38-40, 44-46, 51-53, 58-60, 64-66, 72-74, 78-80, 89-98; `commodity_producer_manager.cc` 7-17; `supply_demand_manager.cc` 9-16; `supply_demand_manager.h` 33-36, 40-42, 58-60, 64-66, 75-79
* `Model/CompMath.lean`: `comp_math.cc` 18-25, 27-34, 36-43, 45-61, 63-71, 73-81, 83-91, 93-134; `composition.cc` 17-65; `cyc_arithmetic.cc` 13-43
* `Model/Convert.lean`: `infile_converters.cc` 15-162
* `Model/Cycpp.lean`: `cycpp.py` 99-106, 368-386, 762-828, 830-874, 1243-1244, 2210-2225, 2227-2284, 2286-2295, 2297-2303, 2305-2314
* `Model/CycppGen.lean`: `cycpp.py` 396-420, 518-531, 922-924, 940-983, 985-987, 1018-1020, 2010, 2013-2018, 2035-2046, 2048-2066, 2074-2085, 2115-2145, 2147-2160
* `Model/CycppLine.lean`: `cycpp.py` 2315-2327, 2364-2371
* `Model/CycppScan.lean`: `cycpp.py` 89-91, 121-122, 263-394, 490-516, 666-683, 693-697, 699-715, 717-734, 876-901, 908-915, 2297-2303
* `Model/CycppState.lean`: `cycpp.py` 488-508, 520-533, 1097-1142, 1868-1898, 1914-1947, 1969-1998; `query_backend.h` 456-477; `res_buf.h` 81-94, 312-348
* `Model/CycppText.lean`: `cycpp.py` 82-92, 245, 279, 281-288, 292, 322, 341, 390, 475, 488, 681-688, 728-731, 908-915
* `Model/CycppType.lean`: `cycpp.py` 96-106, 745-828
* `Model/Decay.lean`: `composition.cc` 15, 17-39, 45-65, 67-163; `composition.h` 84, 90, 101-107; `context.h` 23, 83-85; `material.cc` 17-28, 68-125, 127-141, 186-236, 251-275; `material.h` 173-178
* `Model/Decayer.lean`: `decayer.cc` 13-16, 19-48, 53-83, 86-90, 93-113, 116-152, 155-160; `decayer.h` 64-71, 73-75, 77-78
* `Model/Diag.lean`: `cyclus.cc` 509-530; `error.cc` 13-36; `error.h` 83-143; `lib.pyx` 692-739; `logger.cc` 8-86; `logger.h` 35-174; `main.py` 157-195
* `Model/Discovery.lean`: `discovery.cc` 23-46, 80-128; `env.cc.in` 98-162, 179-200
* `Model/DynMod.lean`: `discovery.cc` 48-78; `dynamic_module.cc` 62-64, 73-95, 97-105, 107-116, 118-124, 126-138; `dynamic_module.h` 95-99, 101-112; `lib.pyx` 1908-1920; `pyhooks.cc` 38-41; `pymodule.pyx` 26-35, 38-58; `unix_helper_functions.h` 13-53
* `Model/Enrichment.lean`: `enrichment.cc` 15-33, 85-130
* `Model/EnvPaths.lean`: `env.cc.in` 25-80, 120-153, 164-174; `env.h` 30-49, 98-107
* `Model/ExchangeGraph.lean`: `cyc_limits.h.in` 35; `exchange_graph.cc` 58-79, 127-134; `exchange_graph.h` 27-60, 67-107, 115-192, 204-289; `greedy_preconditioner.cc` 17-26
* `Model/Executor.lean`: `context.h` 328-330; `timer.cc` 95-99; `trade_executor.h` 19-36, 65-72, 89-100, 119-128, 138-155, 162-166; `trader_management.h` 49-93
* `Model/Fleet.lean`: `facility.cc` 34, 52; `institution.cc` 40, 44, 48-61; `region.cc` 29, 33; `sim_init.cc` 378-469; `timer.cc` 65-80, 181-191; `xml_file_loader.cc` 441-448
* `Model/Functions.lean`: `symbolic_function_factories.cc` 10-21, 24-41, 59-78, 81-93, 96-118; `symbolic_functions.cc` 12-14, 24-26, 37-50; `symbolic_functions.h` 88-97
* `Model/Greedy.lean`: `exchange_graph.h` 285; `exchange_solver.cc` 11-14, 16-22, 86-97; `greedy_solver.cc` 46-60, 62-80, 82-94, 96-134, 136-141, 143-210, 212-216, 218-246; `greedy_solver.h` 27-35, 40-46, 151-154
* `Model/Hdf5Rows.lean`: `hdf5_back.cc.in` 75-97, 163-250, 336-428, 483-514, 516-575, 621-658, 694-703; `hdf5_back_gen.py` 651-1050, 1488-1547, 1897-1912, 1918-1960, 2158-2345; `query_backend.h` 33-345
* `Model/Infile.lean`: `infile_tree.cc` 22-146; `infile_tree.h` 73, 76-176; `xml_file_loader.cc` 130-158
* `Model/InfileGen.lean`: `cycpp.py` 138-151, 542-586, 1163-1174, 1198-1199, 1205-1347, 1349-1364, 1366-1381, 1383-1547, 1564-1623, 1625-1639, 1664-1670, 1694-1705, 1707-1774, 1776-1817; `infile_tree.h` 83-112
* `Model/Initial.lean`: `context.cc` 160-170; `context.h` 194-216; `xml_file_loader.cc` 370-448
* `Model/Inventory.lean`: `material.cc` 38-43; `timer.cc` 111-121, 132-179
* `Model/JsonText.lean`: `cyclus.cc` 393-395, 486-488; `infile_converters.cc` 89-96, 159-161; `pyne.cc` 13085-13146, 13191-13200, 13239-13935, 14557-14563, 14604-14776, 15448-15468, 16091-16318, 16867-17027
* `Model/Kahan.lean`: `comp_math.cc` 36-43; `cyc_arithmetic.cc` 13-39; `res_map.h` 216-233
* `Model/LMatrix.lean`: `l_matrix.cc` 50-55, 69-71, 74-76, 79-81, 85-91, 118-138, 142-153, 157-168, 176-206, 210-214, 218-222, 226-230, 234-247, 251-264, 269-280, 284-292; `l_matrix.h` 46-49
* `Model/Loader.lean`: `dynamic_module.cc` 19-32, 34-39, 41-51, 53-60, 66-68; `dynamic_module.h` 38-42; `greedy_solver.cc` 23-26; `recorder.cc` 67-83; `sim_init.cc` 52-54, 241-266, 268-292; `xml_file_loader.cc` 207-284, 286-306
* `Model/MatQuery.lean`: `comp_math.h` 39; `enrichment.cc` 36-82; `mat_query.cc` 15-17, 19-21, 23-27, 29-36, 38-42, 44-56, 82-114
* `Model/MemBack.lean`: `actions.py` 93-97, 100-102, 105-114, 117-126; `datum.cc` 22-31; `memback.pyx` 49-104, 122-129, 143-181, 231-254, 259-279, 281-308, 310
* `Model/MockSim.lean`: `agent.cc` 38; `agent.h` 405-408; `context.cc` 124-155; `facility.cc` 27-29; `mock_sim.cc` 36-226; `mock_sim.h` 59-66; `sink.h` 71-76, 91; `source.h` 85-90, 107; `timer.cc` 19-82, 181-191, 217-222, 224-253, 268-281
* `Model/Nuc.lean`: `pyne.cc` 139-141, 231-242, 261-269, 272-278, 311-315, 2305-2439, 2671-2683, 2689-2711, 2716-2802, 2809-2897, 2940-2965, 3028-3035, 3102-3128, 3147-3192; `pyne.h` 124, 126
* `Model/NucForms.lean`: `pyne.cc` 2440-2605, 2904-2913, 2919-2935, 2983-3000, 3049-3051, 3059-3061, 3066-3071, 3085-3087, 3197-3211, 3229-3254, 3269-3275, 3281-3286, 3296-3331, 3357-3396, 3402-3431, 3459-3486, 3492-3502, 3520-3526, 3544-3574, 3601-3628, 3636-3641, 3655-3663, 3677-3681, 3683-3701, 3704-3725, 3738-3753
* `Model/NucTables.lean`: `pyne.cc` 439-2283, 2444-2592
* `Model/Package.lean`: `package.cc` 9-19, 33-43, 45-99, 117-126, 138-163, 165-192, 194-204; `package.h` 73-86, 94-96, 98-103, 116-120; `random_number_generator.cc` 65-71; `random_number_generator.h` 123, 136-138
* `Model/Portfolio.lean`: `bid.h` 138-144; `bid_portfolio.h` 37, 56-70, 87-89, 124-131, 136-143; `capacity_constraint.h` 64-118, 132-136; `exchange_context.h` 66, 87; `request.h` 164-170; `request_portfolio.h` 32-51, 93, 116-128, 150-162, 167-169, 190-192, 214-221, 223-236
* `Model/Position.lean`: `position.cc` 12-17, 21-27, 29-32, 34-37, 39-44, 46-54, 56-64, 66-82, 84-104, 106-111, 113-134, 136-159, 161-169, 182-198; `position.h` 132-137
* `Model/PostCython.lean`: `cython.py` 5-8, 11-20, 23-36, 39-87, 90-112, 115-129, 132-151, 155-164
* `Model/Precond.lean`: `greedy_preconditioner.cc` 30-43, 45-79, 82-115, 118-130, 133-145; `greedy_preconditioner.h` 78-93
* `Model/ProgDiff.lean`: `coin_helpers.cc` 20-121; `prog_translator_tests.cc` 231
* `Model/ProgSolver.lean`: `greedy_preconditioner.cc` 45-79; `greedy_solver.cc` 143-145; `prog_solver.cc` 55-95; `solver_factory.cc` 84-92, 122-173
* `Model/ProgTranslator.lean`: `exchange_graph.cc` 127-134; `exchange_graph.h` 153-161; `prog_translator.cc` 16-49, 51-58, 72-127, 129-217, 219-231; `prog_translator.h` 18-25
* `Model/PyAgent.lean`: `agents.pyx` 70-77, 93-100, 724-807, 916-923, 933-942, 988-990, 1716-1719, 1721-1722; `gentypesystem.py` 512-530, 533-646, 1730-1930; `lib.pyx` 172-189
* `Model/PyDb.lean`: `datum.cc` 11-37; `gentypesystem.py` 1629-1686; `lib.pyx` 73-169, 207-249, 261-275; `query_backend.h` 386-405; `recorder.cc` 58-61, 67-111
* `Model/PyExec.lean`: `agents.pyx` 682-717; `gentypesystem.py` 2308-2380; `pyagents.py` 18-46, 48-62, 64-70, 73-97, 104-117, 119-130
* `Model/PyInfile.lean`: `agents.pyx` 780, 783, 809-914; `cycpp.py` 542-586; `gentypesystem.py` 649-664, 680-744, 1577-1583, 2394-2411; `lib.pyx` 114, 998-1057, 1083-1102
* `Model/PyInv.lean`: `agents.pyx` 70-77, 107-113, 806-807, 924-931, 944-953, 955-965; `gentypesystem.py` 1264-1500, 1956-1971; `lib.pyx` 1266-1292; `pyagents.py` 46-70
* `Model/PyJson.lean`: `jsoncpp.pyx` 1-514; `pyne.cc` 14867-15660, 16339-16368
* `Model/PyLife.lean`: `agent.cc` 61, 68; `agents.pyx` 69-77, 733-741, 1064-1072, 1121-1128; `context.cc` 115-122; `lib.pyx` 1243-1263, 1297-1312, 1377-1384, 1908-1920, 1929-1935
* `Model/PyLoop.lean`: `cyclus.cc` 60, 228; `eventhooks.pyx` 4-6; `events.pyx` 15-28, 43-54; `mock_sim.cc` 217, 224; `pyhooks.cc` 12-32, 34
* `Model/PyMain.lean`: `lib.pyx` 808, 949; `main.py` 48-51, 75-81, 307-393, 396-408, 410-415, 418-427; `simstate.py` 17-40, 100-127, 129-130, 132-139, 141-167, 169-179, 181-191, 193-196
* `Model/PyPrefs.lean`: `agents.pyx` 46-52, 138-179, 626-641, 656-671; `exchange_context.h` 24-29, 31-35; `gentypesystem.py` 2077-2084, 2105-2112, 2141-2142, 2149-2160, 2222-2227, 2230-2238, 2265-2268, 2286-2287, 2295-2305; `resource_exchange.h` 86-94, 97-107, 145-153
* `Model/PySource.lean`: `infile_converters.cc` 164-170; `lib.pyx` 932-951; `pyhooks.cc` 53-55; `pyinfile.pyx` 18-22, 25-53, 56-64; `xml_file_loader.cc` 30-61
* `Model/PyTrade.lean`: `agents.pyx` 601-680; `capacity_constraint.h` 77-83; `gentypesystem.py` 950-1039, 1193, 1256, 2075-2146, 2163-2217; `lib.pyx` 1794-1905
* `Model/Query.lean`: `hdf5_back.cc.in` 163-250; `hdf5_back_gen.py` 1071-1080; `query_backend.h` 366-625; `sqlite_back.cc` 71-90, 104-138, 140-146, 188-203, 205-234, 236-247
* `Model/Random.lean`: `context.cc` 327-351; `random_number_generator.cc` 14-19, 21-23, 26-27, 31-32, 37-38, 42-50, 52-61, 65-71, 73-79; `random_number_generator.h` 67-72, 102-146, 151, 171, 188, 223, 241, 267, 289, 307, 326
* `Model/RecipeContext.lean`: `commodity_recipe_context.cc` 9-18, 21-23, 26-28, 31-33, 36-39, 58-76, 78-97; `commodity_recipe_context.h` 49-51, 54-56, 59-61, 65-67, 69-76, 92-97
* `Model/Recorder.lean`: `datum.cc` 11-32, 35-37; `datum.h` 84-88; `recorder.cc` 13-31, 51-65, 67-83, 85-89, 91-103, 108-110, 113-115, 117-120; `recorder.h` 79-86, 122-127
* `Model/Registry.lean`: `context.cc` 160-270; `context.h` 371-382; `package.cc` 7, 9-19, 24-31, 101-113, 116, 118-127, 132-137, 192-202; `package.h` 103-108, 111-117, 182-185, 192-196; `random_number_generator.h` 136-138; `sim_init.cc` 58-64, 177-240, 350-376, 628; `xml_file_loader.cc` 323-361
* `Model/ResBuf.lean`: `material.cc` 101-125; `product.cc` 32-37, 48-56, 59-69; `res_buf.h` 64-67, 81-93, 116, 129-163, 171-173, 178-190, 198-216, 235-246, 249-260, 272-297, 311-349, 361-368, 370-383; `res_manip.cc` 7-32
* `Model/ResMap.lean`: `res_map.h` 43-46, 66-70, 72-79, 81-84, 94-103, 106-124, 136-140, 149-153, 160-171, 179-191, 201-212, 216-233, 235-245
* `Model/Resource.lean`: `composition.cc` 29-39; `context.cc` 224-235; `material.cc` 17-28, 68-70, 72-99, 101-125, 143-162, 164-184; `material.h` 121-122; `product.cc` 15-37, 48-56, 59-69, 97-117
* `Model/ResourceExchange.lean`: `exchange_context.h` 25-29; `exchange_manager.h` 37-40; `resource_exchange.h` 21-34, 75-83, 86-94, 97-107, 114-122, 125-131, 134-141, 145-153, 155-165
* `Model/Schema.lean`: `dynamic_module.cc` 34-39; `xml_file_loader.cc` 30-127, 363-368, 387; `xml_flat_loader.cc` 14-45
* `Model/SellPolicy.lean`: `material.cc` 90, 143-162; `matl_sell_policy.cc` 46-68, 70-91, 170-175, 177-243, 245-293; `matl_sell_policy.h` 114, 133-140; `resource.h` 139-156
* `Model/Server.lean`: `actions.py` 61-66, 69-74, 221-236; `events.pyx` 21-31, 38-59; `server.py` 220-232, 235-244, 254-267, 390-397
* `Model/SimInfo.lean`: `context.cc` 21-22, 24-83, 273-321; `context.h` 23, 25, 27, 45-132; `query_backend.h` 456-477; `sim_init.cc` 25-47, 49-73, 148-176; `timer.cc` 268-281, 287; `xml_file_loader.cc` 450-496
* `Model/SimInit.lean`: `agent.cc` 45-50, 52-57, 226-236; `context.cc` 132-137, 148-152; `sim_init.cc` 32-42, 52-54, 91-121, 378-463, 487-501, 503-516, 518-540; `timer.cc` 268-281; `xml_flat_loader.cc` 83-121
* `Model/SolverConf.lean`: `exchange_solver.h` 18; `greedy_solver.cc` 22-26; `sim_init.cc` 44-50, 52-54, 241-348; `xml_file_loader.cc` 226-284
* `Model/SqliteValues.lean`: `datum.h` 81-86; `query_backend.h` 28-348; `sqlite_back.cc` 48-69, 71-90, 104-138, 166-182, 188-203, 205-234, 236-247, 249-366, 368-481, 483-498, 508-574; `sqlite_back.h` 75-84; `sqlite_db.cc` 20-23, 35-37, 39-41, 43-50
* `Model/StateTables.lean`: `db_init.cc` 8-21; `mock_sim.cc` 18-33; `query_backend.h` 522-582; `sim_init.cc` 124-150, 361-373, 420-427, 465-475; `xml_file_loader.cc` 391-407
* `Model/Stock.lean`: `composition.cc` 15, 29-39, 87-103; `material.cc` 30-32, 45-54, 72-99, 101-125, 127-141, 143-162, 164-184, 233-235; `material.h` 173-178; `product.cc` 12, 15-29, 48-56, 59-69, 80-95, 97-117; `res_tracker.cc` 19-101, 103-120; `resource.cc` 5-6; `resource.h` 29, 108-112; `sim_init.cc` 52-54, 78-79, 124-146, 465-485, 570-613, 615-629, 646
* `Model/Stub.lean`: 
* `Model/Styled.lean`: `jsoncpp.pyx` 248-255; `pyne.cc` 16324-16512
* `Model/Threads.lean`: `context.cc` 124-157; `datum.cc` 11-32; `recorder.cc` 67-83, 85-89; `resource.cc` 8-11; `timer.cc` 83-93, 147-175, 230-249; `timeseries.h` 48-67
* `Model/Timer.lean`: `agent.cc` 61; `context.cc` 124-155; `timer.cc` 19-63, 65-80, 83-93, 95-99, 101-109, 111-121, 124-130, 181-191, 193-215, 217-222, 224-254, 268-281; `timer.h` 55-60, 98-120
* `Model/Tracker.lean`: `material.cc` 17-22, 144, 186-261, 263-275; `product.cc` 15-29, 81, 120-125; `res_tracker.cc` 8-13, 19-32, 34-42, 44-65, 67-75, 77-101, 103-120; `res_tracker.h` 54-60; `resource.cc` 5-6, 8-11; `resource.h` 29, 108-112
* `Model/Translator.lean`: `bid_portfolio.h` 61; `exchange_context.h` 53-62, 65-69, 72-81, 86-95, 97-117; `exchange_graph.cc` 90-93, 106-111; `exchange_translator.h` 39-77, 81-107, 110-118, 131-137, 140-146, 150-182, 186-230, 240-259, 262-275, 278-295
* `Model/UniformTaylor.lean`: `uniform_taylor.cc` 12-40, 43-63, 66-108, 111-154
* `Model/VL.lean`: `hdf5_back.cc.in` 99-130, 133-160, 578-619, 660-690, 693-768, 796-814; `query_backend.h` 639-1006
* `Model/VLFiles.lean`: `hdf5_back.cc.in` 11-39, 98-160, 577-616, 660-691, 694-764, 773-794, 796-838; `hdf5_back.h.in` 225-245; `hdf5_back_gen.py` 718-726, 1216-1228, 1468-1474, 1708-1732, 1748-1800, 2448-2545, 2594-2612, 2682-2697, 2831-2834; `query_backend.h` 10-18, 628
* `Model/Validator.lean`: `relax_ng_validator.cc` 22-89; `xml_parser.cc` 22-86

## Parts of the code that are not modelled

* Parsing of XML and Python input to trees and the validation against schemas inside libxml (its use is C138).
  Reading and writing JSON text is C112 and C131, but for the
  styled writer to streams and the comments; queries of the trees are C96, the conversions between JSON and XML C97 and
  C98.
* The HDF5 library; of its backend the layout of files opened again (`LoadTableTypes`) and the filling up of texts and
  vectors inside values of variable length (`pad_children`).  Rows are C109, conditions and row selection C30,
  variable-length values C31 and C110.  SQLite itself (what C106 assumes about it is in its model).
* COIN (the theorems of C50 and C51 speak about all feasible or optimal points) and the engine of boost random (arbitrary in C93).
* pyne apart from nuclide identifiers and their forms (C101, C111): masses and decay data (C76 and C77 hold for every solver that is additive in
  time, C92 for all decay data).
* What the system does when it loads shared libraries and Python modules (arbitrary in C132), the
  parsers of the command lines (Boost; `argparse` apart from the order of actions, C134), the environment apart from search paths (C84) and the values of C137.
* `cycpp.py` apart from the type helpers, shapes, UUIDs, class graph, the code for snapshots and
  initialisation (C40 to C44), the schema and the code that reads the input (C113), the table of classes
  (C114), the canonical types (C115), the text of the second and third pass (C116, C117), and
  line directives (C118).
* The archetypes under `stubs/`, `agents/null_inst.cc` and `agents/null_region.cc`, which do nothing.
* Parallel execution under OpenMP, apart from ticks and tocks (C107): loops marked parallel run in index order.
* Rounding of floating-point numbers, apart from sums (C108): doubles are exact rational or real numbers.

## Properties

### C01 ResBuf quantity is the sum of its contents

After any sequence of ResBuf operations (Push one, Push many, Pop, Pop(qty), PopN, PopBack, Decay aside, capacity changes), whether or not individual calls throw, quantity() equals the sum of the quantities of the objects currently held, count() equals the number of objects held, and space() equals max(0, capacity() - quantity()).

* Status: partial.  Holds for every program whose vector pushes list distinct objects (of one quality in a bulk Product buffer). False otherwise: the two _fails theorems give concrete programs.
* Modelled and proved: The buffer is a list of object ids over a heap, with the cached quantity, the capacity and the id set; every method is a function giving the state reached and a value or error. Invariant over all programs of calls, failing calls included.
* Theorems: `Verif/Props/ResBuf.lean`.

  * `C01_quantity_is_sum_partial`: **C01 (partial).** The reported quantity, count and space are accurate after every client program, failing calls included, whose vector pushes contain no object twice and, for bulk Product buffers, no mixed qualities. Missing from the full claim: exactly those vector pushes, for which it is false (`C01_fails_duplicate`, `C01_fails_mixed`).
  * `C01_fails_duplicate`: C01 is violated when one vector passed to `Push` contains an object twice: the object is absorbed into itself by a bulk buffer and its quantity is lost.
  * `C01_fails_mixed`: C01 is also violated without duplicates: a bulk Product buffer given a vector of two qualities throws after storing the first object, without counting it.

### C02 ResBuf never holds more than its capacity

In every reachable state of a ResBuf the held quantity is at most capacity() + eps_rsrc(); lowering the capacity below the held quantity (beyond eps_rsrc()) or pushing past it throws ValueError and leaves the buffer as it was.

* Status: partial.  The excess over capacity is at most eps times the number of calls; the bound of a single eps is false because a full buffer keeps accepting pushes of at most eps.
* Modelled and proved: Same machine. Induction over programs with a count of the calls.
* Theorems: `Verif/Props/ResBuf.lean`.

  * `C02_capacity_respected_partial`: **C02 (partial).** The held quantity is at most `capacity + eps` after every fair program that never pushes an amount in `(0, eps]`. Missing: tiny pushes, for which the bound is false (`C02_fails`, `C02_overflow_unbounded`).
  * `C02_excess_bounded`: The general bound that does hold: each accepted push can add at most one `eps` to the excess, so after `n` calls the excess is at most `n * eps`.
  * `C02_overflow_rejected`: **C02, the check itself**: pushing more than the free space plus `eps`, or lowering the capacity below the held quantity minus `eps` (or below 0), throws `ValueError` and changes nothing.
  * `C02_fails`: C02 is violated: an object of size `eps` is accepted by a full buffer, again and again.
  * `C02_overflow_unbounded`: The excess over the capacity is not bounded at all: for every `n` there is a fair program after which a buffer of capacity 0 holds `n * eps`.

### C03 ResBuf pops are first-in first-out and conserve material

Pop() returns the oldest object, PopBack() the newest, PopN(n) the n oldest in order; Pop(qty) returns objects, oldest first, whose quantities add up to qty (splitting at most one object), and the quantity popped plus the quantity left equals the quantity before. Popping from an empty buffer or more than is held throws ValueError.

* Status: proved.  For every reachable buffer.
* Modelled and proved: Same machine. Direct theorems about each pop on every reachable state.
* Theorems: `Verif/Props/ResBuf.lean`.

  * `C03_pop_oldest`: **C03, `Pop()`**: the oldest object leaves, the others stay in order, and what is held shrinks by exactly that object; an empty buffer throws `ValueError`.
  * `C03_popBack_newest`: **C03, `PopBack()`**: the newest object leaves.
  * `C03_popN_oldest`: **C03, `PopN(n)`**: the `n` oldest objects leave in order, unsplit; a count larger than held or negative throws `ValueError`.
  * `C03_popVector_exact`: **C03, `PopVector(qty)`**: for `0 ≤ qty ≤ quantity()` the objects handed out are the `n` oldest held objects followed by at most one new object split off the next one; their quantities add up to exactly `qty`; what stays is the rest in order, and held quantity falls by exactly `qty`. More than is held throws `ValueError`.
  * `C03_popQty_exact`: **C03, `Pop(qty)`**: a successful call returns one object of exactly the requested quantity, and the held quantity falls by exactly that amount.

### C04 A failed ResBuf call leaves the buffer unchanged

If any ResBuf Push/Pop/PopN/PopBack/capacity call throws, the buffer's contents, order, capacity and reported quantity are the same as before the call.

* Status: partial.  Failing calls are atomic except those failing inside Product::Absorb on mixed qualities, for which witnesses are given.
* Modelled and proved: Same machine: methods return the state reached when they throw, and the theorem says it is the state before.
* Theorems: `Verif/Props/ResBuf.lean`.

  * `C04_failed_call_atomic_partial`: **C04 (partial).** A failing call leaves everything unchanged, for all calls except those that can fail inside `Product::Absorb` half way: `Push(vector)` into a bulk buffer, `Pop(qty)` and `Pop(qty, eps)` on buffers holding Products of different quality. For those the claim is false (`C04_fails_push`, `C04_fails_pop`).
  * `C04_fails_pop`: C04 is violated by `Pop(qty)` on a buffer of Products of two qualities: the call throws from `Squash` after the objects were taken out of the buffer.
  * `C04_fails_push`: C04 is violated by `Push(vector)` of Products of two qualities into a bulk buffer: the call throws from `Absorb` after the first object was stored.

### C05 ResBuf never holds the same object twice

No resource object is ever present twice in a ResBuf: pushing an object that is already held throws KeyError, also when the duplicate occurs inside one vector passed to Push.

* Status: partial.  A vector that lists one object twice is accepted by Push(vector).
* Modelled and proved: Same machine; invariant that ids are distinct and agree with the id set.
* Theorems: `Verif/Props/ResBuf.lean`.

  * `C05_no_duplicates_partial`: **C05 (partial).** After every fair program no object is held twice, and pushing a held object (of the right type, that fits) throws `KeyError` and changes nothing. Missing: vectors that contain an object twice, which are accepted (`C05_fails`).
  * `C05_fails`: C05 is violated: a vector naming an object twice puts it into the buffer twice.

### C06 Package fill masses respect the package limits and never exceed the material

For a valid Package, every mass returned by GetFillMass(qty) lies between fill_min and fill_max (up to eps_rsrc()), the masses sum to at most qty (up to eps), and what is left over is less than one more package can take.

* Status: proved.  For every accepted package type, quantity and stream of draws. Uniform draws are assumed to lie within the limits (boost). Termination of the random strategies needs fill_min > 0; with fill_min = 0 the loop may go on forever (C06_zero_min_may_loop).
* Modelled and proved: `GetFillMass` of each strategy with an arbitrary stream of draws; loops that depend on draws have fuel and the theorems bound the fuel needed.
* Theorems: `Verif/Props/Package.lean`.

  * `C06_fill_masses`: **C06.** For every package type that `Create` accepts, every quantity and every stream of random draws (uniform draws lying within the limits, normal draws unrestricted): whenever `GetFillMass` returns, every mass is at least `fill_min - eps` and at most `fill_max`, the masses add up to at most the quantity, and the rest is less than the smallest package that could still be filled.
  * `C06_deterministic_succeeds`: **C06 (no spurious failure).** With a positive quantity that needs fewer packages than the split limit, the deterministic strategies never throw.
  * `C06_terminates`: **C06 (termination).** With a positive minimum fill, `GetFillMass` terminates for every stream of draws that keeps producing values within the limits.
  * `C06_zero_min_may_loop`: With a zero minimum the loop need not end: draws of 0 (allowed by the limits) go on forever.

### C07 A transport unit never ships more packages than exist nor a partial unit

MaxShippablePackages(pkgs) is between 0 and pkgs, and the shipped packages can be divided into transport units each holding between fill_min and fill_max packages; the unrestricted unit ships everything; fewer packages than fill_min ship nothing.

* Status: partial.  Holds where the integer arithmetic is defined. With fill_min = 0 (the default of Create) the equal and hybrid strategies divide by zero; with fill_max near INT_MAX they overflow.
* Modelled and proved: `MaxShippablePackages` branch by branch, with `int` division and overflow explicit.
* Theorems: `Verif/Props/Package.lean`.

  * `C07_shippable_partial`: **C07 (partial).** Where the computation is defined, the number of packages shipped is between 0 and the number available and can be divided into units within the limits; fewer packages than `fill_min` ship nothing. Missing: `fill_min = 0` (the default of `Create`) or sums above `INT_MAX` with the equal or hybrid strategy, where the code divides by zero or overflows (`C07_fails_zero_min`).
  * `C07_hybrid_optimal`: **C07 (hybrid is optimal).** The hybrid strategy ships the largest number of packages that can be divided into transport units within the limits.
  * `C07_unrestricted`: **C07 (unrestricted).** The unrestricted unit ships everything.
  * `C07_fails_zero_min`: C07 fails for the equal strategy with the default minimum 0: the computation divides by zero.

### C08 Resource quantity is conserved by split and merge

For Products and Materials, Extract followed by any further Extract/Absorb calls among a family of resources neither creates nor destroys quantity: the total over the family is unchanged; extracting more than is held throws ValueError and changes nothing; absorbing leaves the absorbed resource empty.

* Status: partial.  Proved for every program in which no object absorbs itself; absorbing itself destroys the quantity (C08_fails_self). Material::PackageExtract conserves but may leave a remainder of down to -eps (C08_packageExtract_negative).
* Modelled and proved: Products and Materials as objects in a heap; programs of Create, Extract, Absorb, Package; the sum of the quantities is followed over all programs.
* Theorems: `Verif/Props/Resource.lean`.

  * `C08_product_conserved`: **C08 (Products).** Over every program the total quantity of all products is exactly the quantity created; splitting, merging and failing calls do not change it.
  * `C08_product_calls`: **C08 (Products, single calls).** Extracting more than is held throws `ValueError`; a successful extraction returns a new object holding exactly the quantity asked for, of the same quality, and leaves the rest; a successful absorption empties the absorbed product; a failing call changes nothing.
  * `C08_fails_self`: Absorbing itself destroys a product's quantity, so the restriction of C08 to distinct objects is needed.
  * `C08_material_conserved`: **C08 (Materials).** Over every program the total quantity of all materials is exactly the quantity created; splitting (by quantity, composition or package), merging and failing calls do not change it.
  * `C08_material_calls`: **C08 (Materials, single calls).** Extracting more than is held throws `ValueError`; every failing call changes nothing; a successful extraction gives a new object with exactly the quantity and composition asked for and leaves the rest; a successful absorption empties the absorbed material.
  * `C08_packageExtract_calls`: **C08 (packaging).** `Material::PackageExtract` throws `ValueError` and changes nothing if the quantity exceeds what is there by more than `eps`; otherwise the new material has exactly the quantity asked for and the old one keeps the rest, which is at least `-eps`.
  * `C08_packageExtract_negative`: `PackageExtract` of a Material, unlike that of a Product, accepts slightly more than is held and leaves a negative quantity.
  * `C08_fails_self`: Absorbing itself destroys a material.

### C09 Nuclide-by-nuclide conservation in Material

When material with composition c is extracted from a Material, then for every nuclide the mass in the remainder plus the mass in the extracted part equals the mass before, and the same for Absorb; so over every sequence of extracts and absorbs the total mass of each nuclide is constant (in exact arithmetic, thresholds aside).

* Status: partial.  Proved for every program of non-negative amounts with threshold 0 and non-empty compositions; an empty composition or the default threshold breaks it.
* Modelled and proved: As C08 with compositions as maps from nuclides; the mass of each nuclide is followed over all programs.
* Theorems: `Verif/Props/Resource.lean`.

  * `C09_nuclides_conserved_partial`: **C09 (partial).** Over every program the total mass of every nuclide is exactly what was created: extractions (of any composition), absorptions and failing calls conserve each nuclide. Missing: negative quantities, materials with an empty composition (`C09_fails_blank`) and extractions with a threshold, which drop nuclides (`C09_fails_threshold`).
  * `C09_fails_blank`: C09 fails when a blank composition is extracted: the remainder keeps its composition but not its quantity.
  * `C09_fails_threshold`: C09 fails with a threshold (the default of `ExtractComp` is `eps_rsrc()`): the remainder of `2/1000000` units loses all its nuclides although it keeps its quantity.

### C10 Resource state ids are unique and the recorded genealogy is acyclic

Each state id is recorded in the Resources table at most once, every recorded parent id is 0 or an id of a smaller, earlier state, and so following Parent1/Parent2 links always terminates; tracked resources never share an object id.

* Status: proved.  Uniqueness and acyclicity hold for every program, also with clones; on tracked resources every parent is an earlier row. With clones (outside the property) a parent may be missing from the table (C10_fails_clone).
* Modelled and proved: The tracker writes rows of the Resources table; invariant over all programs that ids are unique and parents earlier.
* Theorems: `Verif/Props/Tracker.lean`.

  * `C10_ids_unique`: **C10 (every program).** In every history, also with clones and untracked resources: the ids in the Resources table strictly increase (so each occurs once), parents have smaller ids than their children, and two different tracked resources never share an object id.
  * `C10_genealogy_wellFounded`: **C10 (genealogy).** Following parent links always terminates.
  * `C10_parents_recorded`: **C10 (tracked programs).** On tracked resources no call crashes, and every parent named in the Resources table is 0 or the id of an earlier row, so the genealogy has no dangling links.
  * `C10_fails_clone`: C10's parents need not be recorded when clones are used: a modified piece of a clone names a parent that is in no row.

### C11 Changing a package checks the limits of the package being changed to

ChangePackage(name) succeeds only if the resource quantity is within the fill limits of the package called name, otherwise it throws ValueError and leaves the package unchanged.

* Status: partial.  Holds for Products; Materials are checked against the limits of the current package instead of the requested one.
* Modelled and proved: `ChangePackage` of Product and Material branch by branch.
* Theorems: `Verif/Props/Resource.lean`.

  * `C11_product`: **C11 (Products).**
  * `C11_material_partial`: **C11 (Materials, partial).** What holds for Materials: changing to "unpackaged" always succeeds; for any other name success depends on the limits of the *current* package, and a failing call leaves the package unchanged. Missing: the check against the requested package, which the code does not make (`C11_fails_material`).
  * `C11_fails_material`: C11 fails for Materials: an unpackaged material of quantity 100 is moved into a package that takes at most 2, even one that does not exist.

### C12 Greedy solver respects every node-group capacity

In the matches the greedy solver adds, for every request group and supply group and every capacity of that group, the sum over matches of quantity times unit capacity does not exceed the capacity (up to the exclusive-match float tolerance).

* Status: partial.  Supply constraints are kept when no constraint mixes zero and positive unit capacities; a request group keeps only its loosest constraint (counterexample proved) and an exhausted constraint with a zero unit capacity disables all limits (counterexample proved).
* Modelled and proved: The exchange graph and the greedy solver as state machines on node groups and arcs, with infinities and NaN in the capacity ratios; invariant over the loop over request groups, nodes and arcs.
* Theorems: `Verif/Props/Greedy.lean`.

  * `C12_capacities_partial`: (partial). Whatever the result of the solver, the matches on the graph respect every limited capacity of every supply group and of every request group with a single capacity: the sum of quantity times unit capacity is at most the capacity, or exceeds it by at most the floating point tolerance of one exclusive match of the group. Full statement: the same for every request group, and for all non-negative unit capacities. Missing, because false: request groups with several capacities (`C12_fails_request`), and constraints that mix zero and positive unit capacities (`C12_fails_zero`); the latter are excluded by `Uniform`.
  * `C12_fails_request`: **C12 fails** for request groups with several capacities: `Capacity` takes the largest of the quotients for a request node, so only the loosest constraint is respected. Here 10 units are matched against a capacity of 2.
  * `C12_fails_zero`: **C12 fails** for zero unit capacities: when a constraint of a supply group is exhausted, the quotient `0 / 0` for a bid that does not use that constraint is NaN, `std::min_element` and `std::min` then ignore all other limits. Here a load of 6 is put on a constraint of 3.

### C13 Greedy solver never over-fills a request group or a node

The flow the greedy solver assigns to the arcs of a request group never exceeds the group's requested quantity, and the flow through any node never exceeds the node's quantity (up to the solver's tolerances); all match quantities are positive.

* Status: partial.  Node quantities are kept unless 0/0 occurs in the capacity ratio (counterexample proved).
* Modelled and proved: As C12, with the quantity of each node.
* Theorems: `Verif/Props/Greedy.lean`.

  * `C13_group`: Request groups: the flow into every request group is at most the requested quantity, or exceeds it by at most the tolerance of one exclusive match of the group.
  * `C13_node_partial`: Nodes (partial): the flow through every node is at most its quantity, or exceeds it by at most the tolerance of one exclusive match of the node. Full statement: without `Uniform`. That is false, see `C13_fails_zero`.
  * `C13_positive`: Positivity: every match is on an arc of the graph and carries more than `eps()`.
  * `C13_fails_zero`: **C13 fails** for zero unit capacities: in the same run 6 units flow through a bid of quantity 4.

### C14 Greedy solver treats exclusive arcs all-or-nothing

Every match on an exclusive arc carries exactly the arc's exclusive value, never a part of it.

* Status: proved.
* Modelled and proved: As C12, with the set of exclusive arcs.
* Theorems: `Verif/Props/Greedy.lean`.

  * `C14_exclusive`: **C14.** Every match on an exclusive arc carries exactly the exclusive value of the arc.
  * `C14_arc_value`: The exclusive value (`Arc::Arc`): an arc is exclusive if and only if one of its ends is; its exclusive value is 0 (so it is never matched) or the whole quantity of an exclusive end.

### C15 Greedy solver objective accounts for all demand

The objective returned by the greedy solver equals the sum over matches of quantity/preference plus the pseudo cost times the unmatched demand, where unmatched demand plus matched flow equals total requested quantity over the request groups.

* Status: proved.
* Modelled and proved: As C12; the objective is the sum over the matches made.
* Theorems: `Verif/Props/Greedy.lean`.

  * `C15_objective`: **C15.** The objective is the cost of the matches plus the pseudo cost of all demand that was not matched, where matched and unmatched demand together are the requested quantities of all request groups.

### C16 Preconditioning only reorders the exchange graph

GreedyPreconditioner::Condition permutes the request groups and the nodes inside each group, sorting them by decreasing weight and keeping the relative order of equal weights, and adds, drops or changes nothing else.

* Status: proved.
* Modelled and proved: `GreedyPreconditioner` as stable sorts; the sorted lists are characterised independently (permutation, ordered by weight, stable).
* Theorems: `Verif/Props/Precond.lean`.

  * `C16_condition`: **C16.** For every graph and every weight map `Condition` sorts the nodes of every request group, and the request groups, stably by descending weight, and changes nothing else: not the nodes, the arcs, the supply groups, nor the capacities, exclusive groups and quantity of any group.
  * `C16_reverse`: Weights given lightest first: reversing a nonnegative weight map keeps the commodities and reflects every weight at the middle of the range, so the order of any two commodities is reversed and all weights stay within the old range; a negative weight aborts.

### C17 Exchange translation builds one arc per admissible bid and back-translates to the same trade

Translating an exchange context yields an arc for exactly those (request, bid) pairs whose adjusted preference is positive; a preference of 0 throws ValueError and negative preferences give no arc; translating matches back yields trades naming exactly the original request and bid with the matched amount.

* Status: proved.  Translate succeeds unless a preference is 0 or missing; arcs are exactly the bids with positive preference, once each; back-translation is exact and different arcs give different trades.
* Modelled and proved: `ExchangeTranslator::Translate` and `BackTranslateSolution` on contexts of portfolios; invariants over its loops give the graph exactly.
* Theorems: `Verif/Props/Translator.lean`.

  * `C17_success`: When `Translate` succeeds: every request portfolio asks for a positive quantity and no bid has preference 0.
  * `C17_error`: Otherwise it throws `ValueError`.
  * `C17_arcs`: The arcs: one for every bid whose preference is positive, in the order of the bids, from the node of its request to its own node, with that preference.
  * `C17_arcs_nodup`: No arc is there twice.
  * `C17_back`: Back: every list of matches on arcs of the graph is translated to one trade per match, with the matched amount, a bid of the exchange that the match's arc was made for, and the request which that bid answers.
  * `C17_distinct`: Different arcs lead to different bids.

### C18 Every trade is executed exactly once and gets its own transaction id

When a list of trades is executed, every supplier is asked for exactly its own trades, every response is delivered to its requester exactly once, and each recorded transaction (quantity above eps_rsrc()) carries a transaction id never used before.

* Status: partial.  Each supplier asked once for its own trades in order; responses are delivered once provided every response names a requester that takes part in some trade (the code checks nothing: C18_fails_foreign shows a recorded response delivered to nobody); rows and fresh ids proved in general.
* Modelled and proved: `TradeExecutor` with traders as arbitrary functions on an arbitrary state and arbitrary iteration orders; the calls made and rows written are computed exactly.
* Theorems: `Verif/Props/Executor.lean`.

  * `C18_suppliers`: Suppliers: every supplier with a trade is asked exactly once, no one else is asked, and a supplier is asked for exactly its own trades, in order.
  * `C18_requesters`: Requesters: every requester with a trade is sent its responses exactly once, and it is sent exactly the responses to its requests.
  * `C18_delivered_partial`: Every response is delivered exactly once, if suppliers respond to requesters of the trades.
  * `C18_rows`: Transactions: there is one row for every response with more than `eps_rsrc()`, naming the supplier that was asked, the requester, the resource and the commodity.
  * `C18_ids`: Transaction ids: over any sequence of exchanges the transactions are numbered consecutively from the first unused id; so no id is used twice, or again.
  * `C18_fails_foreign`: **C18 fails for responses to foreign requesters**: a response whose requester has no trade is recorded as a transaction but delivered to nobody.

### C19 A request portfolio has one requester and its quantity is the sum of its demand

All requests of a RequestPortfolio have the same requester (a request from another requester throws KeyError and leaves the portfolio unchanged), and qty() equals the sum of the target quantities of the requests added, a mutual-request set counting once with its average.

* Status: proved.  Exact arithmetic; target quantities do not change while the portfolio is built.
* Modelled and proved: `RequestPortfolio` as a state machine over all programs of calls.
* Theorems: `Verif/Props/Portfolio.lean`.

  * `C19_requester`: **C19 (one requester).** All requests of a portfolio have the portfolio's requester.
  * `C19_add`: **C19 (rejection).** A request of another requester is rejected with `KeyError` and the portfolio stays as it was; a request of the same requester (or the first request) is accepted and appended.
  * `C19_qty`: **C19 (quantity).** If no request is declared mutual twice, the quantity of the portfolio is the sum of the targets of the other requests plus the average of every mutual set.
  * `C19_qty_plain`: **C19 (quantity, no mutual sets).** Without mutual requests the quantity is the sum of the targets.

### C20 Mutual requests: meeting any one of them meets the group's demand

After AddMutualReqs, satisfying any single request of the mutual set in full consumes exactly the average quantity of the mutual demand constraint, i.e. each member's coefficient times its quantity is the average.

* Status: partial.  The documented coefficient average/quantity is inverted in the code (quantity/average): false in the documented example, true for equal quantities.
* Modelled and proved: As C19, with the coefficients of AddMutualReqs.
* Theorems: `Verif/Props/Portfolio.lean`.

  * `C20_equal_partial`: **C20 (partial).** The statement holds for mutual requests of equal quantity. Missing: sets with different quantities, for which it is false (`C20_fails`).
  * `C20_coefficient`: What the code does instead: the coefficient times the average is the target.
  * `C20_fails`: **C20 is violated.** In the documented example the full order of 10 kg has coefficient 10 / 9.5 in place of 9.5 / 10.

### C21 A bid portfolio has one bidder and only positive offers

All bids of a BidPortfolio have the portfolio's bidder and offer a positive quantity; a bid of another bidder throws KeyError, an offer that is not positive throws ValueError, neither changes the bids; the bidder is NULL as long as no bid has been added.

* Status: partial.  A rejected first bid leaves its bidder behind although no bid was added.
* Modelled and proved: `BidPortfolio` as a state machine over all programs of calls.
* Theorems: `Verif/Props/Portfolio.lean`.

  * `C21_bids`: **C21 (one bidder, positive offers).** All bids of a portfolio have the portfolio's bidder and offer a positive quantity.
  * `C21_add`: **C21 (rejection).** A bid of another bidder is rejected with `KeyError` and the portfolio stays as it was. A bid of the same bidder is accepted exactly if its quantity is positive; a rejected one leaves the portfolio as it was. The bids stay the same whenever the call throws.
  * `C21_bidder_partial`: The bidder of an accepted bid is set and stays.
  * `C21_fails_bidder`: **C21 is violated** in one point: `bidder()` is documented to be NULL as long as no bid has been added (`bid_portfolio.h:91-92`), but a rejected first bid (quantity not positive) leaves its bidder behind, and bids of other bidders are rejected from then on.

### C22 Scheduled builds happen exactly once, at their time step

A build scheduled for time t (t later than the current step) is performed exactly once, during the build phase of step t, in scheduling order; SchedBuild for the current or an earlier step throws ValueError; a build for a step at or after the end of the simulation never happens.

* Status: proved.  Builds at each time are exactly those accepted for it, in order, for the executed steps; C22_fails_parent records that the parent may have been decommissioned before (dangling pointer).
* Modelled and proved: The timer as a machine over an arbitrary world; the agenda of builds is followed through all steps of any run.
* Theorems: `Verif/Props/Timer.lean`.

  * `C22_builds`: **C22.** What is built at a time is exactly what was scheduled (and accepted) for it, once each and in the order of scheduling, for every time step that the run executes; nothing is built at other times.
  * `C22_accepts`: Acceptance: a build is accepted iff it is for a later step (-1 means the next one).
  * `C22_fails_parent`: : a build happens for a parent that has been decommissioned before (the pointer passed to `Build` dangles).

### C23 Scheduled decommissionings happen exactly once

An agent whose decommissioning is scheduled for step t, accepted by the timer, is decommissioned exactly once and at step t; rescheduling moves it; scheduling in the past throws ValueError.

* Status: partial.  At each step exactly the agents on the agenda at the beginning of the phase are decommissioned; exactly-once holds if no decommissioning is scheduled during the phase and none for decommissioned agents. False otherwise: a request for the current time made during the phase is lost, and an agent rescheduled during it is decommissioned twice.
* Modelled and proved: As C22 for the agenda of decommissionings.
* Theorems: `Verif/Props/Timer.lean`.

  * `C23_decoms`: **C23.** At every executed step exactly those agents are decommissioned, each once and in the order of scheduling, that are on the agenda for it when the decommissioning phase begins (`post` begins with the first event of that phase); nobody is decommissioned at other times.
  * `C23_once_partial`: Exactly once (partial): if agents schedule no decommissioning while or after the agents of the current step are decommissioned, and none of an agent that is already decommissioned, then every agent is decommissioned exactly at the time of the last accepted request for it. Missing: requests made during the decommissioning phase, for which it is false (`C23_fails_lost`, `C23_fails_twice`).
  * `C23_accepts`: Acceptance.
  * `C23_fails_lost`: Fails for a request made while agents are being decommissioned: when agent 2 is notified of the decommissioning of agent 1, it schedules agent 3 for the current step. The request is accepted, but agent 3 is never decommissioned.
  * `C23_fails_twice`: Fails in another way: an agent that is about to be decommissioned in the current step and is rescheduled during the decommissioning phase is decommissioned twice (it is a dangling pointer the second time).

### C24 Time-step phases run in a fixed order for every registered listener

In each time step the phases snapshot, build, tick, material exchange, product exchange, tock, decision, decommission, event loop happen in that order; unless listeners are registered or deregistered in between, each registered listener receives exactly one Tick, one Tock and one Decision per step (Tick and Tock: Python listeners first, then the others, in registration order; Decision in agent-id order); the step counter increases by one, and the run ends after duration steps, or after the step in which KillSim was called, as the Finish row says.

* Status: partial.  Order, contents and end of all steps; exactly one call per listener if nobody changes the registrations during the step and no listener is registered twice. False otherwise (witnesses).
* Modelled and proved: As C22; the events of a step are computed exactly as a list.
* Theorems: `Verif/Props/Timer.lean`.

  * `C24_order`: Order: calls of the timer are ordered by time, and within a step by phase: snapshot, build, tick, material exchange, product exchange, tock, decision, decommission, event loop.
  * `C24_step`: The contents of a step: the trace splits into `pre`, the step (`A` with snapshot and builds, `B` from tick to decision, `C` decommissioning and event loop) and `post`. If nobody registers or deregisters listeners in `B`, then all listeners registered at its beginning get one call for each registration: Python listeners first, then C++ ones, in order of registration, for Tick and Tock; and one call in order of ids for Decision.
  * `C24_once_partial`: Exactly once: if in addition no listener is registered twice, Tick, Tock and Decision reach every listener exactly once.
  * `C24_end`: The end: the run ends at the given duration, or after the step in which somebody called `KillSim`; the `Finish` row says which, and the last step.
  * `C24_fails_skip`: Fails if a listener deregisters another one during Tick: listener 3, registered throughout the step, gets no Tick.
  * `C24_fails_twice`: : a listener that is registered twice gets every Tick twice, but one Decision.

### C25 The agent tree stays consistent

After any sequence of creating, building, decommissioning and deleting agents (each agent being built at most once) no freed agent has been used, every built agent is in its parent's children set and in no other, every parent and child exists, and the context's list has exactly the existing agents; decommissioning an agent removes exactly it (and, as context.h documents, its children recursively), unregisters it and records one exit; deleting the context deletes every agent.

* Status: partial.  The tree stays consistent for all valid sequences, and the exact effect of decommissioning and of deleting the context. False: descendants are not removed with their ancestor (context.h documents that they are), deleting the context leaks every agent that has a parent, building an agent under a second parent leaves a dangling pointer.
* Modelled and proved: The agents of a context as a finite map with parents and children; invariant over all sequences of operations, undefined behaviour is `none`.
* Theorems: `Verif/Props/Agent.lean`.

  * `C25_tree`: **C25.** No sequence of valid calls uses a deleted agent, and afterwards parents and children agree: every child's parent exists, every agent is in its parent's set and in no other.
  * `C25_decommission`: Decommissioning: removes the agent, from its parent's children too, makes its children orphans, and changes nothing else about the other agents; the exit is recorded once.
  * `C25_refused`: Refusal: a facility that may not be decommissioned stays as it is.
  * `C25_leak`: The end: deleting the context deletes exactly the agents without a parent; all others are never deleted (`context.cc:101-102` says that deallocation propagates).
  * `C25_fails_subtree`: Fails as documented (`context.h:218`, "Destructs and cleans up m (and it's children recursively)"): after the institution is decommissioned its facilities are still there, without a parent, and still trade.
  * `C25_fails_leak`: Fails: deleting the context leaves agents behind.
  * `C25_fails_rebuild`: Fails if an agent is built a second time under another parent: the first parent keeps a pointer to it, and uses it after it is deleted.

### C26 Agent lifetime and exit time

An agent that enters at time e with lifetime n (n not -1) has exit_time e+n-1, is decommissioned by its parent institution at the end of step e+n-1 and not earlier (if its decommission condition allows), and lives through exactly n time steps; lifetime -1 means it is never retired by its institution.

* Status: partial.  In every simulation in which only institutions ask for decommissionings: no agent leaves before the end of its lifetime, agents with lifetime -1 never leave, and an agent whose parent institution gets the Tock of step e+n-1 (and whose decommission condition holds) leaves exactly then. Lifetimes below 1 (other than -1) act like 1 (C26_fails_zero).
* Modelled and proved: Timer and agents together (fleet), with arbitrary additional behaviour; invariants over whole runs.
* Theorems: `Verif/Props/Fleet.lean`.

  * `C26_not_before`: Not earlier: in a simulation in which only institutions retire agents, an agent that entered at `e` with lifetime `n` leaves only if `n` is not -1, and at the end of step `e + n - 1` or later.
  * `C26_exit`: Exactly then: if moreover its parent is an institution that receives the Tock of step `e + n - 1` (of step `e` if `n` is less than 1) and nothing ever forbids decommissioning, the agent leaves at the end of that step, and at no other time.
  * `C26_forever`: Infinite lifetime: an agent with lifetime -1 is never retired.
  * `C26_fails_zero`: Fails for lifetime 0: a facility that enters at time 1 with lifetime 0 has exit time 0 but lives through step 1 like one with lifetime 1.

### C27 Lifetime cannot be changed after the agent entered, except by force

lifetime(n) before entering sets the lifetime for every n and afterwards throws and changes nothing; lifetime_force(n) sets the lifetime at any time, and when the new exit time has passed the agent is retired at the next opportunity.

* Status: partial.  lifetime(n) completely. lifetime_force throws ValueError for every n whose end has passed, so in particular an infinite lifetime (-1) can never be forced.
* Modelled and proved: `lifetime` and `lifetime_force` branch by branch.
* Theorems: `Verif/Props/Agent.lean`.

  * `C27_before`: Before the agent enters: both setters set the lifetime and nothing else.
  * `C27_after`: Afterwards: `lifetime(n)` throws `ValueError` and changes nothing.
  * `C27_force_partial`: Force (partial): `lifetime_force(n)` sets the lifetime if the agent then still has a step to live. Missing: the other lifetimes, for which it throws (`C27_fails_force`).
  * `C27_fails_force`: Fails: forcing a lifetime that has passed already throws `ValueError`; in particular it is impossible to make the lifetime of an agent infinite (`n = -1`).

### C28 Context counts equal the number of live agents

n_prototypes(p) and n_specs(s) equal the number of agents with that prototype or spec that have entered the simulation and not left it, after any sequence of agents entering and leaving.

* Status: partial.  Exact value of both counters after all sequences; equal to the number of agents in the simulation if no institution or region enters. False otherwise: institutions and regions are not counted when they enter but are when they leave.
* Modelled and proved: Counters of the context over all sequences of operations.
* Theorems: `Verif/Props/Agent.lean`.

  * `C28_counts`: What the counters are: agents of classes that register (facilities, and direct subclasses of `Agent`) that entered, less agents of any class that left.
  * `C28_partial`: (partial): if no institution or region enters the simulation, the counters are the number of agents in it. Missing: institutions and regions (`C28_fails`).
  * `C28_fails`: Fails for institutions: while one is in the simulation the counter is 0, and after it has left −1.

### C29 Every recorded datum reaches every backend exactly once and in order

For any dump count, after Close every datum recorded through NewDatum/Record has been delivered to every registered backend exactly once and in recording order.

* Status: partial.  For dump counts of at least 1 and every program that records each datum before the next is made and registers backends before recording, every backend gets exactly the recorded data, once and in order, by the time of Close. The full statement is false: dump count 0, changing the dump count later, unrecorded or interleaved data, flushing between NewDatum and Record, and names given as std::string (C29_fails_*).
* Modelled and proved: The recorder as a machine over all programs of NewDatum, AddVal, Record, registration, flush and close.
* Theorems: `Verif/Props/Recorder.lean`.

  * `C29_exact`: . For every dump count of at least one and every valid sequence of acts that registers the backend `b` after `pre`, goes on with `post` and then closes the recorder: nothing goes wrong, and during and after its registration `b` is sent all data recorded by `post`, each once and in order, preceded only by data of `pre` that were still in the buffer when it was registered (fewer than the dump count).
  * `C29_all`: The usual case: backends registered before anything is recorded receive exactly the recorded data, each once and in order.
  * `C29_fails_zero`: Documented (`recorder.h:62-64`): with dump count 0 data "will be flushed immediately as they come". In fact the first `NewDatum` reads beyond the end of an empty vector.
  * `C29_fails_dump_count`: Setting the dump count while data are buffered does not reset the index: the backend is sent empty data without a title that nobody recorded, and the recorded one is lost.
  * `C29_fails_dump_count_small`: ... and if the new count is not larger than the index, the next datum is undefined behaviour.
  * `C29_fails_unrecorded`: A datum that was created but not recorded (say, because of an exception) is sent to the backends all the same.
  * `C29_fails_interleaved`: Two data under construction at the same time: recording the first sends the second half-built, and its later values are lost.
  * `C29_fails_flush`: `Flush` is documented to flush all backends (`recorder.h:111`), but does not if nothing is buffered.
  * `C29_fails_name`: Names given as `std::string` are not kept: the entry has a dangling pointer as name.

### C30 Filtering a query with no conditions returns the whole table

Query(table, conds) returns exactly the rows that satisfy all the conditions; an empty condition list, like NULL, returns all rows.

* Status: partial.  SQLite: for every list of conforming data sent to an empty database, every query with NULL or non-empty conditions on existing columns returns exactly the satisfying rows in order. HDF5: for every table and all conditions on existing columns. The full statement is false: an empty condition list is malformed SQL (C30_fails_empty, C30_fails_injector), HDF5 ignores conditions on unknown columns (C30_fails_unknown), PrefixInjector does not prefix ColumnTypes (C30_fails_prefix).
* Modelled and proved: Conditions as data; SQLite as a table of rows with the text of the query parsed by a grammar; HDF5 row selection as written.
* Theorems: `Verif/Props/Query.lean`.

  * `C30_sqlite_partial`: For SQLite: after conforming data have been sent to an empty database, a query of a recorded table whose conditions are `NULL` or a non-empty list of conditions on existing columns returns the values of exactly those data of the table that satisfy all conditions, in order of recording; a condition on another column is an error, and so is another table.
  * `C30_hdf5_partial`: For HDF5: if every condition is on an existing column, the query returns exactly the rows that satisfy all of them (all rows for `NULL` and for an empty list).
  * `C30_injector`: The wrapper that adds conditions: over a backend that answers all queries with conditions on existing columns correctly, its queries return the rows that satisfy the given and the added conditions.
  * `C30_prefix`: The wrapper that adds a prefix asks for the table of the prefixed name.
  * `C30_getVal`: `GetVal` returns the value in the first column with the given name, and throws exactly if there is no such row or column.
  * `C30_cond`: A condition is made from exactly the six operators, with the operator, field and value given.
  * `C30_fails_empty`: With SQLite an empty list of conditions gives malformed SQL and an error, for every table.
  * `C30_fails_injector`: So a wrapper with nothing to inject makes every query without conditions fail.
  * `C30_fails_unknown`: HDF5 ignores conditions on columns that do not exist: here the only row is returned, although no column satisfies the condition.
  * `C30_fails_prefix`: The prefix is not used for `ColumnTypes`: the types of a table that can be queried are not found.

### C31 Variable-length values read back as written

Distinct values of a variable-length type written through the HDF5 backend are stored under distinct keys, assuming the hash is collision free, so each reads back as written.

* Status: partial.  For every type with at most one variable-length component, at the end, and an injective hash, every written value is found at its digest after any writes; strings without NUL are read back. The full statement is false: C31_classified shows that the overloads of Sha1::Update without collisions are exactly those types, so 22 of 40 collide whatever the hash (C31_fails); NULs cut strings (C31_fails_nul); one overload hashes object memory (C31_fails_memory).
* Modelled and proved: The hash is arbitrary; what `Sha1::Update` feeds to it is computed for each type, and types are classified by injectivity of that text.
* Theorems: `Verif/Props/VL.lean`.

  * `C31_distinct`: Types with at most one variable-length component, at the end, are hashed without collisions.
  * `C31_read_partial`: For collision-free types: with an injective hash, after any writes the cell at the digest of every written value contains the value.
  * `C31_string_partial`: Strings and blobs without NUL are read back as written.
  * `C31_classified`: The types of the overloads of `Sha1::Update` that are hashed without collisions are exactly those with at most one variable-length component, at the end; 22 of the 40 have collisions, whatever the order of the elements in sets and maps.
  * `C31_count`: Of the 40 overloads, 18 have the injective digest of `C31_overload`.
  * `C31_fails`: Whatever the hash: if two different values of a type collide, one of them is lost when both are written.
  * `C31_fails_strings`: In particular lists of strings.
  * `C31_fails_nul`: A string that contains a NUL is cut there.
  * `C31_fails_memory`: The overload that hashes the memory of the key: equal maps may be stored under different keys, and different maps with the same values and keys of the same length under the same key.

### C32 Restart restores exactly the agents alive at the snapshot

Restarting from time t rebuilds exactly the agents that had entered before t (or at t when t is 0) and not exited before t, each once, parents before children, and restores the pending builds and decommissions and all id counters.

* Status: partial.  For every database a restart makes exactly the agents alive, parents first (C32_agents), and restores the counters (C32_counters). Schedules of any run of the timer are restored for later builds and for decommissionings if nothing was scheduled after the snapshot (C32_schedules_partial, C32_restart_partial). The full statement is false: builds due at the restart time are lost (C32_fails_now), builds scheduled after the snapshot are restored too (C32_fails_later), requests for agents that are gone or not yet there crash (C32_fails_decom), builds lose a dead parent (C32_fails_parent), orphans make the restart loop forever (C32_fails_orphan).
* Modelled and proved: Tables of one simulation, and the functions that rebuild agents and schedules from them, composed with the timer.
* Theorems: `Verif/Props/SimInit.lean`.

  * `C32_agents`: Agents: a restart at `t` from a database with one entry for each agent and a state at `t` for each agent alive then never fails, ends iff the chain of parents of each agent alive ends at one without parent, and makes exactly the agents alive, each once, parents first, with the parent and enter time of its entry and the prototype and lifetime of its state.
  * `C32_counters`: Counters: all counters are restored to the values they had at the last snapshot of the time of the restart.
  * `C32_schedules_partial`: Schedules: if a run is at the beginning of step `t` (where snapshots are taken) and the database contains exactly what has been scheduled so far, a restart at `t` with agents that include those in the schedules gives a timer with the same builds for later steps and the same decommissionings for this and later steps, provided that no agent in the schedules has missed its decommissioning.
  * `C32_restart_partial`: The restart as a whole: under these conditions, and those under which the agents and counters are there (`C32_agents`, `C32_counters`), the restart ends with those agents and counters, at step `t`, with the schedules that the run had then.
  * `C32_fails_now`: Fails: a build scheduled for the step of the snapshot is lost; the entry of the agent is skipped because it is taken to be in the schedule, and the schedule is read for later steps only.
  * `C32_fails_later`: Fails: builds scheduled only after the snapshot are put into the restored schedule as well (`SchedTime` is not looked at), so whoever schedules them again gets two agents.
  * `C32_fails_decom`: Fails: any request to decommission an agent at or after `t` that is not alive at `t` crashes the restart. Such requests are there when the simulation went on after the snapshot and built agents, and when a request was later replaced by an earlier one.
  * `C32_fails_parent`: Fails: a build whose parent is not alive loses its parent without notice.
  * `C32_fails_orphan`: Fails: if the parent of an agent alive at `t` left before `t`, the restart never ends.

### C33 The initial agent hierarchy is built parents first, for every input

Loading the initial agents of a flat input file builds every listed agent exactly once with its parent built before it, and reports an error if some agent's parent does not exist.

* Status: partial.  For distinct names loading ends iff every chain of parents ends at an agent without parent, and then builds every agent once, parents first. The full statement is false: a missing parent gives an endless loop instead of an error (C33_fails_missing), so do cycles (C33_fails_cycle), and an agent listed twice is built once (C33_fails_duplicate).
* Modelled and proved: The loop over the agents of a flat input file with fuel; termination is characterised by the parent relation.
* Theorems: `Verif/Props/SimInit.lean`.

  * `C33_flat_partial`: For agents with different names: loading ends iff the chain of parents of every agent ends at an agent without parent; then every agent has been built once, parents first.
  * `C33_fails_missing`: If an agent's parent does not exist there is no error: loading never ends.
  * `C33_fails_cycle`: Nor does it end if an agent is its own parent.
  * `C33_fails_duplicate`: Of two agents with the same name only the second is built.

### C34 Commodity priorities given in the input govern the solver

The solution priorities written for the commodities at input loading are the weights the greedy preconditioner is created with.

* Status: partial.  The full statement is false for every input file with commodities: through loader, SQLite backend and initialiser the solver always gets no weights, because the loader writes column SolutionPriority and the initialiser reads SolutionOrder (C34_fails); the weights matter (C34_fails_order). For a table with column SolutionOrder the weights are positive and ordered by priority (C34_partial).
* Modelled and proved: Loader, database column names and initialiser composed.
* Theorems: `Verif/Props/Loader.lean`.

  * `C34_partial`: For a table that has the column `SolutionOrder`: the preconditioner has a positive weight for each commodity, and a commodity has the larger weight iff it has the smaller number, so those with small numbers come first.
  * `C34_fails`: Fails, for every input file: whatever priorities it gives, the solver is made without weights, because `LoadPreconditioner` looks for a column that the loader does not write, and the exception is taken to mean that there is no table.
  * `C34_fails_order`: The weights make a difference: with priorities 1 for eggs and 5 for spam the requests for eggs should be met first, without weights those for spam are.

### C35 Unprioritised commodities rank after all prioritised ones

ProcessCommodities keeps every priority that is at least 1 and gives every other commodity one common priority larger than all given ones.

* Status: partial.  For every non-empty map of commodities, over rational numbers. With no commodity, which the schema allows, the end iterator is dereferenced (C35_fails).
* Modelled and proved: `ProcessCommodities` on sorted maps.
* Theorems: `Verif/Props/Loader.lean`.

  * `C35_partial`: For a file with commodities: priorities that are at least 1 are kept, and all others become one common priority that is larger than them.
  * `C35_fails`: Fails for a file without commodities, which the schema allows: undefined behaviour.

### C36 Agent specs round-trip through their string form

Parsing spec.str() gives back the spec, parsing s and printing gives s, for all specs whose fields contain no colon; strings without exactly three fields are rejected; the alias defaults to the agent name; distinct specs sanitize to distinct table names.

* Status: partial.  Proved for all strings and specs: printing and parsing, parsing and printing, rejection, defaults of the input file. False: the alias of the four-argument constructor does not default (C36_fails_alias), another alias is lost in the string (C36_fails_roundtrip), distinct specs share table names (C36_fails_sanitize); names without / - : . _ do not (C36_sanitize_partial).
* Modelled and proved: `AgentSpec` on lists of characters: split, join, defaults.
* Theorems: `Verif/Props/Loader.lean`.

  * `C36_roundtrip`: Printing and parsing: a spec whose fields have no colon is read back from its string, with the name of the agent as alias.
  * `C36_str`: Parsing and printing: a string that is accepted is printed again, its fields have no colon, and the alias is the name of the agent.
  * `C36_rejects`: Rejection: exactly the strings with two colons are accepted, the others are a `ValueError`.
  * `C36_read`: Elements of the input file: library and alias default to the name of the agent, the path to the empty string.
  * `C36_sanitize_partial`: Table names: specs whose fields consist of characters other than `/ - : . _` have distinct table names.
  * `C36_fails_alias`: Fails: the alias of the constructor with four arguments does not default to the name of the agent; it stays empty (the library does default).
  * `C36_fails_roundtrip`: Fails: the alias is not part of the string, so a spec with another alias is not read back.
  * `C36_fails_sanitize`: Fails: distinct specs share a table name.

### C37 The Python memory backend answers from data no older than the registry allows

For every table, MemBack.query returns exactly the rows recorded so far for that table that satisfy the conditions if the table is in the registry, and otherwise asks the fallback; changing the registry drops the cached tables that are no longer registered.

* Status: partial.  Refinement of an ideal backend for all histories without a restriction of a store-all registry and with uniform fields, and agreement with a fallback that has everything. False: True followed by a set leaves stale tables, a table registered late is answered from its later rows only, data with fields in another order are stored under the wrong columns, a short datum loses its table and all later ones of the batch.
* Modelled and proved: Notify, query and the registry setter on an abstract value type; refinement of an ideal backend over all histories, and of a fallback that mirrors everything.
* Theorems: `Verif/Props/MemBack.lean`.

  * `C37_history_partial`: Without fallback: after any history a query returns the rows of the table recorded since it was last asked for, `None` if there are none, provided the data of a table have the same fields and the registry is never restricted while other tables are stored. The full statement is false: `C37_fails_stale` (restriction), `C37_fails_fields` and `C37_fails_lost` (mixed fields), `C37_fails_late` (a fallback that knows more).
  * `C37_history_conds_partial`: Without fallback, with plain conditions: of those rows the ones that meet the conditions.
  * `C37_mirror_partial`: With a fallback that holds everything recorded: as long as the registry is not changed, every query without conditions returns all rows recorded for the table so far, stored or not.
  * `C37_fallback`: The fallback: a table that is neither stored nor asked for is answered by the fallback, conditions included.
  * `C37_drop_partial`: Dropping: assigning a set drops the tables of the old set that are not in the new one, and keeps the others.
  * `C37_fails_stale`: The code contradicts C37: after everything was stored, restricting the registry drops nothing. The answer for a table that is no longer registered is what was recorded before the restriction, whatever is recorded afterwards.
  * `C37_fails_late`: The code contradicts C37: a table that is registered after some of its rows were recorded is answered from the rows since then, though the fallback has all of them; asked once before the next row is recorded, the same backend answers with all rows.
  * `C37_fails_fields`: The code contradicts C37: values are entered by position under the fields of the first datum of a batch, so a datum with the same fields in another order is stored wrongly.
  * `C37_fails_lost`: The code contradicts C37: a datum with fewer fields than the first of its batch makes the rows of its table and of all tables that come later in the alphabet disappear.

### C38 Compiled query conditions mean their conjunction

MemBack conditions compile to code that keeps a row iff every condition holds, two condition lists share a cached code object only if they have the same fields and operators, and the code cache never exceeds its bound.

* Status: partial.  The conjunction after all histories of queries with plain field names, injective keys for these, and the bound of the cache for all histories whatever. False: no conditions raise an error, a field called val1 is overwritten by a value, and fields with operators in them make different conditions share code.
* Modelled and proved: Building the context, compiling, caching and evaluating conditions; the cache invariant says every entry was compiled from plain conditions with its key; keys are injective by unique cutting at operator characters.
* Theorems: `Verif/Props/MemBack.lean`.

  * `C38_conjunction_partial`: The conjunction: after any queries with plain conditions, one or more plain conditions on columns of the frame keep exactly the rows that meet all of them, in order. The full statement, for every list of conditions and every history, is false: `C38_fails_empty`, `C38_fails_val` and `C38_fails_collision`.
  * `C38_raises`: Errors: if some comparison of such a query cannot be made, the query raises a TypeError.
  * `C38_shared_partial`: Sharing: plain conditions with the same key have the same fields and operators.
  * `C38_bound`: The bound: after any queries whatever the cache has at most 256 entries, no key twice, and the queue holds exactly its keys in the order they were entered.
  * `C38_hit`: No reordering: a query whose key is in the cache leaves the cache as it is, so the entry that makes room is the one entered first, used or not.
  * `C38_fails_empty`: The code contradicts C38: no conditions are met by every row, but raise an error.
  * `C38_fails_val`: The code contradicts C38 for a field called `val1`: a row that meets both conditions is dropped.
  * `C38_fails_shared`: The code contradicts C38: lists of conditions with different fields and operators share a code object if a field contains an operator.
  * `C38_fails_collision`: The code contradicts C38: what a query returns depends on the queries before. The row meets all three conditions, is found by the first query and missed after another query.

### C39 The server always resumes after unpause

In the Python server, after any sequence of pause and unpause actions that ends with an unpause, the simulation loop eventually continues.

* Status: partial.  All interleavings of consumer, tasks and monitor: for a client that asks for a pause only when none is pending or in effect and for the last unpause only when none is pending, the server comes to rest after finitely many steps and the simulation goes on. False otherwise: an unpause may overtake its pause, a second pause stays queued or replaces the first, a shutdown blocks the unpause behind it.
* Modelled and proved: Transition system of consumer, tasks and monitor on one event loop with the simulation thread; a measure that decreases with every step and an invariant give termination in a state that lets the simulation go.
* Theorems: `Verif/Props/Server.lean`.

  * `C39_resumes_partial`: For a considerate client: after an unpause that comes when no pause is pending, in whatever order the tasks take turns and whatever other actions come in, the server makes only finitely many steps by itself, and when it has none left to make the simulation goes on. The full statement, for every sequence of pauses and unpauses that ends with an unpause, is false: `C39_fails_overtake`, `C39_fails_queued` and `C39_fails_double`.
  * `C39_not_stuck_partial`: Never stuck: in particular none of these states is stuck.
  * `C39_holds`: The pause holds the simulation: as long as no unpause is asked for and the server does not shut down, a pause in effect stays in effect.
  * `C39_fails_overtake`: The code contradicts C39: an unpause that overtakes its pause, because the monitor runs before the consumer, is lost; the simulation is paused for ever.
  * `C39_fails_queued`: The code contradicts C39: a second pause stays in the queue while the first is in effect, and takes effect after the unpause.
  * `C39_fails_double`: The code contradicts C39: of two pauses taken together the second replaces the first, which no unpause can end. The consumer waits for it for ever, so that the next action that comes in, such as a repeating action of the simulation, holds the simulation for good.
  * `C39_fails_shutdown`: The code contradicts C39: a shutdown that waits for the action queue to become empty keeps the monitor from the unpause that would let it become empty.

### C40 Preprocessor types round-trip through text

For every canonical C++ type of the cycpp preprocessor, printing with type_to_str and parsing with parse_template gives back the type; outter_split cuts exactly at the separators outside its braces, and joining the parts with the separator gives back the string.

* Status: partial.  Round trip for types of any depth without buffer templates, and the exact parts of outter_split for every string. False for ResBuf<T>: PRIMITIVES is extended in place, so type_to_str returns a tuple, and raises inside a container. outter_split drops white space and an unbalanced tail, and cuts template arguments apart in typedefs.
* Modelled and proved: Parser and printer on lists of characters; induction on types.
* Theorems: `Verif/Props/Cycpp.lean`.

  * `C40_total`: **C40 (parsing ends).** `parse_template` never recurses deeper than the text is long.
  * `C40_roundtrip_partial`: **C40 (round trip), partial.** For every type built to any depth from the supported leaf types and templates, none of which is one of the buffer tuples of `BUFFERS`, `type_to_str` gives a text and `parse_template` reads the type back from it. The full property has no condition on buffers; see `C40_fails_buffer`.
  * `C40_roundtrip_general`: **C40 (round trip, other leaf sets).** The same for any set of leaf names that can be read back and any other tuples in the set of primitives.
  * `C40_split`: **C40 (splitting).** Every text has a cut at the separators outside all braces, and `outter_split` gives its balanced pieces, in order and without white space at their ends.
  * `C40_join_partial`: **C40 (joining), partial.** If the braces of a text balance and it has no white space, joining the parts of `outter_split` gives back the text. The full property has no such conditions; see `C40_fails_blank` and `C40_fails_tail`.
  * `C40_fails_buffer`: **C40 fails for buffers.** `PRIMITIVES` is extended in place with the buffer tuples, so `type_to_str` of `ResBuf<Material>` is not a text.
  * `C40_fails_nested`: **C40 fails for containers of buffers.** `type_to_str` of `std::vector<ResBuf<Material>>` adds a tuple to a string, a TypeError.
  * `C40_fails_blank`: **C40 fails with blanks.** White space around a separator is lost.
  * `C40_fails_tail`: **C40 fails without balance.** The text after an unclosed brace is dropped.
  * `C40_fails_typedef`: **C40 fails for typedefs.** `TypedefFilter` (`cli/cycpp.py:281-287`) splits with the default braces, so the arguments of a template are cut apart: the second and first parts of `typedef std::map<int, int> foo` are no type.

### C41 Shape annotations are padded to the type

canonize_shape returns a shape with one entry per position of the type: missing entries are -1, given ones are kept, and a shape that is too long is rejected.

* Status: partial.  Proved without a shape and for full and too long shapes. False for every short shape: the result is None.
* Modelled and proved: `canonize_shape` with its flattening loop.
* Theorems: `Verif/Props/Cycpp.lean`.

  * `C41_partial`: **C41, partial.** The loop of `canonize_shape` ends. Without a shape, and with a shape of the length of the type, the result is the padded shape; one that is too long is rejected. Missing: a given shape that is shorter, for which see `C41_fails_short`.
  * `C41_fails_short`: **C41 fails for every short shape.** The result is not the padded shape but `None`.

### C42 UUID literals generated by the preprocessor denote the given UUID

The sixteen bytes generated for a UUID default are the bytes of the UUID.

* Status: partial.  Exactly the UUIDs written correctly are characterised: digit i must equal digit 2i for every byte i. False in general: zip(hex[::1], hex[1::2]) pairs the wrong digits.
* Modelled and proved: The slices and zip of `_val_uuid` on lists of digits.
* Theorems: `Verif/Props/Cycpp.lean`.

  * `C42_partial`: **C42, partial.** The bytes written for a UUID are its bytes exactly when digit `i` equals digit `2 i` for every byte `i`. The full property is that they always are.
  * `C42_fails`: **C42 fails.** The literal for `550e8400-e29b-41d4-a716-446655440000` begins with the bytes 55, 5e, 04 in place of 55, 0e, 84.
  * `C42_text`: The text of the literal determines the pairs of digits.

### C43 Every state variable snapshotted by generated code is restored by it

For every state variable type, generated Snapshot plus SnapshotInv store the variable and generated InitFrom plus InitInv restore it, each exactly once.

* Status: partial.  Generated statements and their effect for all lists of plain and ResBuf variables. False for ResMap (saved twice, resources not restored), TotalInvTracker (not saved), containers of buffers, an alias equal to a variable name (no code for the variable), short shapes (undeclared shape variable) and capacities changed at run time.
* Modelled and proved: Generated statements as data, and running them on an agent; induction on lists of variables.
* Theorems: `Verif/Props/CycppState.lean`.

  * `C43_generated_partial`: **C43 (what is generated), partial.** For every list of plain variables and `ResBuf`s with distinct names, and no alias that is such a name, the generated code saves and restores each variable exactly once: plain ones by `AddVal` and `GetVal`, buffers by `SnapshotInv` and `InitInv`, and the capacities are set after the plain members. The full property is for every type, alias and annotation; see the `C43_fails` theorems.
  * `C43_restore_partial`: **C43 (restoring), partial.** For every such list of variables, save the members of any agent `a` with the generated `Snapshot` and `SnapshotInv` and restore them into a new agent `a0` with empty buffers by the generated `InitFrom` and `InitInv`. If every buffer of `a` has the capacity of its annotation, which is not negative and depends on plain members only, and holds no more than that, then every plain member, and the contents and capacity of every buffer, are as in `a`.
  * `C43_shapes_partial`: **C43 (shape variables), partial.** If every variable has a shape, as those without a `shape` annotation or with one of full length do, `Snapshot` refers only to shape variables that are declared.
  * `C43_fails_resmap`: **C43 fails for `ResMap`.** A `ResMap<int, Material>` is saved by `Snapshot` and by `SnapshotInv`, and `InitInv` has nothing for it: its resources are not restored.
  * `C43_fails_tracker`: **C43 fails for `TotalInvTracker`.** Nothing is saved for it.
  * `C43_fails_container`: **C43 fails for containers of buffers.** For a `std::vector<ResBuf<Material>>` the snapshot is generated, but generating `InitFrom` raises a TypeError.
  * `C43_fails_alias`: **C43 fails for aliases.** A variable whose alias is its own name is replaced by an alias pointer: no code is generated for it at all, whatever its type.
  * `C43_fails_clash`: The same for a variable whose name is the alias of a later one.
  * `C43_fails_shape`: **C43 fails for short shapes.** With a `shape` annotation that is too short (see `C41_fails_short`) `Snapshot` refers to a shape variable that is not declared.
  * `C43_fails_capacity`: **C43 fails for capacities set at run time.** The capacity is not saved. An agent whose buffer has the annotation 10, but was given capacity 20 and holds 15, cannot be restored: `InitInv` throws ValueError.

### C44 Class hierarchy queries

parent_classes returns exactly the ancestors of a class and keeps the parents of all classes, and parent_intersection returns exactly the parents of the class in the query set that are not ancestors of another such parent, so that every wrangler the class derives from is initialised through one of them.

* Status: partial.  Both functions characterised for every finite acyclic graph; without end on cycles. False: the documented condition on other classes of the query set, and classes derived from another archetype have no wrangler at all.
* Modelled and proved: Class graphs as finite maps; induction on the height of a class.
* Theorems: `Verif/Props/Cycpp.lean`.

  * `C44_ancestors`: **C44 (ancestors).** In every finite class graph without cycles `parent_classes` ends with exactly the ancestors of the class; the dictionary it changes keeps the parents of every class.
  * `C44_intersection`: **C44 (parents in a set).** For a class of a finite class graph without cycles `parent_intersection` gives exactly the direct parents of the class in the query set that are not ancestors of another such parent.
  * `C44_cycle`: **C44 (cycles).** A class that is its own ancestor makes `parent_classes` recurse without end, at any depth allowed.
  * `C44_fails_doc`: **C44 fails for its documentation.** The documentation promises the elements of the query set that are parents of the class "and not parents of any other class in query_set". For a class whose only parent is Agent the result is Agent, although Agent is a parent of Facility, which is in the query set.
  * `C44_fails_indirect`: **C44 fails for classes derived from archetypes.** Archetype 4 has the ancestors Agent and Facility, but as its direct parent is not in the query set the result is empty: the generated `InitFrom` and `InfileToDb` of such a class call none of them.

### C45 Piecewise functions built by the factory are continuous where requested

A piecewise function built by PiecewiseFunctionFactory with the default continuity agrees at each segment start with the value of the previous segment, and is zero before the first segment.

* Status: proved.  Over the real numbers, for arbitrary functions: the function built is what the pieces describe, it is zero before the first start, segments meet the previous value, and with the default it is continuous in the topological sense. C45_shift: the first segment is moved so that it starts at 0.
* Modelled and proved: Functions on the reals; invariant over the segments added by the factory; continuity from Mathlib.
* Theorems: `Verif/Props/Functions.lean`.

  * `C45_value`: **C45, values**: the function that is built is what the pieces describe.
  * `C45_zero`: **C45, zero before the first start**.
  * `C45_continuous`: **C45, continuity**: a function that is built from continuous functions with the default is continuous everywhere, also at the start of the first segment.
  * `C45_joint`: **C45, joints**: at its start a segment that is to be continuous has the value that the function had there before it was added, whatever the functions are.
  * `C45_accepted`: **C45, acceptance**: a list of pieces is accepted exactly if the starts increase.
  * `C45_first`: The first segment does not start at its own value: with the default, `AddFunction` moves it so that it starts at 0.
  * `C45_shift`: The line `2 x + 1` as only segment, starting at 0, is 0 at 0 and not 1.

### C46 Enrichment balances mass and fissile mass

For feed, product and tails assays with tails < feed < product, feed quantity equals product quantity plus tails quantity, and feed assay times feed quantity equals the sum for product and tails; all quantities are non-negative.

* Status: proved.  Over the real numbers. Balances, uniqueness, and that the separative work is that of the potential and positive. Extra findings: a tails assay of 0, which the documentation admits, and feed equal to tails give no number and no exception.
* Modelled and proved: Formulas over the reals with `Real.log`; division by zero is `none`.
* Theorems: `Verif/Props/Enrichment.lean`.

  * `C46_balance`: **C46, balances**: feed is product plus tails, and the fissile mass of the feed is that of product and tails; the quantities are not negative.
  * `C46_unique`: **C46, uniqueness**: no other quantities of feed and tails balance.
  * `C46_swu`: **C46, separative work**: for assays strictly between 0 and 1 the separative work is that of the potential, is not negative, and positive if there is product.
  * `C46_range`: **C46, range**: separative work is refused exactly if an assay is outside of [0, 1).
  * `C46_fails_depleted`: Tails without any fissile nuclide are within the range that the documentation of `ValueFunc` admits, but the separative work is not a number.
  * `C46_fails_equal`: With feed equal to tails there is no exception, and no number.

### C47 Buy policy never orders more than fits

The total a MatlBuyPolicy requests in a step is at most the free space of its buffer and its throughput, and with a quantized request each request is exactly one quantum.

* Status: partial.  Proved for every state and parameters with one policy per buffer and sizes in [0,1]: the exact amount, its bounds, quanta, and that any delivery within the order is accepted and fits buffer and tracker. False for two policies on one buffer (C47_fails_shared), negative samples of the size (C47_fails_size), more than INT_MAX quanta (C47_fails_overflow); Init without tracker uses an uninitialised pointer (C47_fails_null).
* Modelled and proved: Tracker, buffer and buy policy as data with arbitrary samples; exact formulas.
* Theorems: `Verif/Props/BuyPolicy.lean`.

  * `C47_amount`: **C47, amount**: if the tracked inventory is at most the level `reqAt` and the policy is not dormant, the total asked for is the least of the limits (rounded down to a multiple of the quantum, if there is one), or nothing if that is below `eps`; otherwise nothing is asked for. With a quantum, every request is exclusive and for one quantum.
  * `C47_bound`: **C47, bound**: with sizes between 0 and 1, what a policy asks for in a step is within its throughput, its fill level, the space of its buffer, the space of the tracker and the rest of the cumulative cap.
  * `C47_portfolio`: **C47, one portfolio**: the requests of a portfolio for the commodities are alternatives, so that its quantity is that of one request.
  * `C47_fits`: **C47, end to end**: if the delivered materials are new to the buffer and sum up to no more than was asked for, accepting them succeeds, stores exactly them, and leaves the buffer within its capacity and the tracked total within the capacity of the tracker.
  * `C47_fails_shared`: Two policies on the same buffer each ask for all of its space: together they ask for more than fits, and accepting both deliveries throws `ValueError`.
  * `C47_fails_size`: A size distribution may have negative samples; a policy whose buffer holds more than its fill level then asks for material, although it has no space.
  * `C47_fails_overflow`: With a quantum and space for more than `INT_MAX` quanta the number of requests is undefined.
  * `C47_fails_null`: A policy that is initialised without a tracker, as the code provides for, uses an uninitialised pointer.

### C48 Sell policy ships everything it takes out of the buffer

When a MatlSellPolicy responds to trades, the material leaving its buffer equals the material in the responses.

* Status: partial.  Conservation proved when every trade fills one package and leaves no remainder of at most eps, and when no packaging is needed. False in general: of a trade that fills several packages only the first is sent and the others are lost (C48_fails_packages), and a remainder of at most eps is lost (C48_fails_small).
* Modelled and proved: Sell policy on the models of buffer and packages; quantities followed through trades.
* Theorems: `Verif/Props/SellPolicy.lean`.

  * `C48_packages_partial`: **C48 (partial), packages**: what leaves the buffer equals what is in the responses, if each trade fits into one package. Missing: trades that are divided into several packages, of which only the first is sent (`C48_fails_packages`), and amounts within `2 * eps`, of which a remainder up to `eps` is dropped (`C48_fails_small`).
  * `C48_plain_partial`: **C48 (partial), plain**: what leaves the buffer equals what is in the responses, if nothing has to be packaged.
  * `C48_fails_packages`: A trade that is divided into several packages: only the first one is sent, the others are lost.
  * `C48_fails_small`: A remainder of at most `eps` is neither sent nor put back.

### C49 Composition arithmetic

Normalize(v, n) gives a vector that sums to n with the same support and proportions (for a vector with non-zero sum); Add and Sub are pointwise; AllPositive holds of every composition that can be created.

* Status: proved.  Exact arithmetic.
* Modelled and proved: Compositions as maps with distinct keys; direct proofs.
* Theorems: `Verif/Props/CompMath.lean`.

  * `C49_normalize`: **C49 (Normalize).** The vector sums to the value, lists the same nuclides in the same order and keeps all proportions; a vector that sums to zero is left alone.
  * `C49_add_sub`: **C49 (Add, Sub).** Addition and subtraction are pointwise and give maps.
  * `C49_create`: **C49 (creation).** A composition is created exactly from vectors of valid nuclides without negative entries, and is the vector given; everything else is rejected with `ValueError`.
  * `C49_threshold`: **C49 (ApplyThreshold).** A negative threshold is rejected; otherwise exactly the entries of magnitude at most the threshold disappear.
  * `C49_atom_mass`: **C49 (atom and mass).** Converting a composition from mass to atoms and back (or the other way) gives the same vector, for non-zero atomic masses.

### C50 Linear-programme solutions respect the exchange constraints

Every feasible integer solution of the programme that ProgTranslator builds, translated back, gives matches that respect all group capacities, do not exceed the arcs' bounds, and use each exclusive arc fully or not at all.

* Status: partial.  Proved for every graph and feasible point: supply group capacities, bounds of arcs by request nodes, exclusive arcs used fully or not at all, at most one match per exclusive node group, the only error; every admissible use of the arcs is feasible, so the program is never infeasible; number and cost of columns. False: optimal solutions may exceed the request group (C50_fails_request) and the quantity of a bid (C50_fails_bid).
* Modelled and proved: Columns and rows of the program as data; theorems about every feasible point.
* Theorems: `Verif/Props/ProgTranslator.lean`.

  * `C50_supply`: The load of the matches on a capacity of a supply group is within the capacity.
  * `C50_arcs`: Each match is on an arc of the graph, above the threshold, and within the bound of the arc: an exclusive arc carries nothing or exactly its quantity (if the program was built with exclusive orders), any other arc no more than the quantity of the request node.
  * `C50_exclusive`: With exclusive orders, at most one arc of an exclusive node group is matched.
  * `C50_complete`: The program admits every admissible use of the arcs; in particular it is never infeasible (use the zero flow).
  * `C50_size`: The program has one column per arc and one per request group that has arcs, whose cost is the pseudo cost; a group without arcs adds nothing.
  * `C50_error`: The translation throws only `ValueError`, and only because of an arc whose preference is not positive.
  * `C50_fails_request`: The full property fails for request groups: the rows of a request group are lower bounds only, and the optimal solution of the program with exclusive orders may deliver more than the group requests and more than its capacity.
  * `C50_fails_bid`: The quantity of a bid does not occur in the program: if the bidder gave no constraint, the optimal solution may take more from a bid than it offers.

### C51 Commodity producers: the cheapest adequate building order

CommodityProducerManager::TotalCapacity is the sum over registered producers, unregistering restores the previous total, and the build orders BuildingManager::MakeBuildDecision returns cover the unmet demand at the least cost.

* Status: partial.  Totals, supply and shape of orders for every state; coverage and least cost for every feasible and optimal point that COIN returns. False without a producer (undefined behaviour), with producers of capacity 0 (no error, nothing ordered), and for values that are integer within tolerance only (truncated instead of rounded).
* Modelled and proved: Sets of producers as lists, the program given to COIN as data, every feasible or optimal point.
* Theorems: `Verif/Props/Commodity.lean`.

  * `C51_total`: **C51, total capacity**: the sum over the registered producers, whatever their order.
  * `C51_register`: **C51, registering**: a new producer adds what it offers, one that is registered adds nothing.
  * `C51_unregister`: **C51, unregistering**: unregistering takes away what the producer offers, so unregistering a producer that was added restores the previous total.
  * `C51_supply`: **C51, supply**: the sum over the managers of the sum over their producers.
  * `C51_orders`: **C51, orders**: whatever COIN returns, orders are for positive numbers, of producers of the commodity, with a builder that has them; and there are none without demand.
  * `C51_cover_partial`: **C51, demand is met (partial)**: if COIN returns a feasible point, the orders cover the demand. Missing: commodities that no producer can supply (`C51_fails_none`, `C51_fails_capacity`) and points that are integer within the tolerance of COIN only (`C51_fails_truncate`).
  * `C51_cheapest_partial`: **C51, cheapest (partial)**: if COIN returns a feasible point that is optimal among feasible points, no orders that can be placed with the builders cover the demand at a lower cost. Missing: what is missing in `C51_cover_partial`.
  * `C51_fails_none`: Without a producer of the commodity, the code takes the address of the first element of an empty vector.
  * `C51_fails_capacity`: A producer of the commodity with the default capacity of 0: no orders cover the demand, and there is no error.
  * `C51_fails_truncate`: COIN accepts a value as integer within a tolerance. A value just below 3 is truncated to 2, and the demand is not covered.

### C52 Commodity recipe context lookups are consistent

After any sequence of AddInCommod/UpdateInRec/AddRsrc/UpdateRsrc/RemoveRsrc calls and lookups, looking up a commodity or resource gives what it was last associated with, unknown commodities are rejected, and recording and restoring keeps the answers.

* Status: partial.  Lookups after every history and restored contexts. False: unknown commodities are not rejected and change the context; stale output commodities; UpdateInRec of an unknown commodity is lost in a snapshot; a context without commodities cannot be restored; equality ignores the sets.
* Modelled and proved: Sorted maps and sets over all sequences of calls, with the tables of a snapshot.
* Theorems: `Verif/Props/RecipeContext.lean`.

  * `C52_lookup`: **C52, lookups**: after any history of calls, every lookup gives what the key was last associated with, and the empty string if it was not associated with anything.
  * `C52_sets`: **C52, sets**: the input commodities are those that were added, and the output commodities are those that were ever named as output.
  * `C52_snapshot`: **C52, snapshot**: a context with an input commodity that is recorded and restored has the same input commodities, and gives the same answers for them and for every resource.
  * `C52_fails_unknown`: Unknown commodities are not rejected: the lookup gives the empty string, and leaves an entry behind, after which the context is different from an equal one.
  * `C52_fails_stale`: An output commodity of a commodity that was added again is still listed, although no commodity leads to it.
  * `C52_fails_update`: A recipe that was set for a commodity that was not added is lost in a snapshot.
  * `C52_fails_empty`: A context without commodities can be recorded but not restored.
  * `C52_fails_equal`: Contexts with different input commodities can be equal.

### C53 Total inventory tracker leaves no more space than its cap

The space a TotalInvTracker reports for its buffers never exceeds the total cap minus the tracked quantity, and buf_tracked space never exceeds both the buffer's own space and the total space.

* Status: proved.  Space of the tracker and of one buffer, change of capacity, initialisation. C53_fails_init is an extra finding: a failing Init has already replaced the buffers.
* Modelled and proved: Formulas of the tracker for every list of buffers.
* Theorems: `Verif/Props/BuyPolicy.lean`.

  * `C53_space`: **C53, space**: the space is never negative, never above what the total capacity leaves beside the tracked quantity, never above what the capacities of the buffers leave, and one of the two bounds is met.
  * `C53_buffer`: **C53, one buffer**: the space for a buffer is at most its own space and at most the total space, and equal to one of them.
  * `C53_fill`: **C53, filling**: an inflow of no more than the space reported for a buffer keeps the tracked quantity within the total capacity and the buffer within its own.
  * `C53_capacity`: **C53, changing the capacity**: refused exactly if the tracked quantity exceeds the new capacity by more than `eps`, and then without effect.
  * `C53_init`: **C53, initialisation**: a tracker is initialised exactly with a non-empty list of buffers and a positive capacity; without buffers every query throws `ValueError`.
  * `C53_fails_init`: A failing `Init` is not atomic: it has already replaced the buffers.

### C54 Untracked resources record nothing

A resource that is not tracked (created untracked, or a clone), and everything extracted from it, never adds a row to the Resources table.

* Status: partial.  Calls made directly on an untracked resource are silent, and everything taken from a Material without context stays untracked; pieces of clones are tracked again, and pieces of untracked Products crash.
* Modelled and proved: As C10, for objects whose tracker is off, and for clones.
* Theorems: `Verif/Props/Tracker.lean`.

  * `C54_untracked_silent_partial`: **C54 (partial).** Calls made directly on an untracked resource add no row, except packages taken from a clone; and whatever is taken from a Material without context has no context either and is untracked. Missing: pieces of clones, which are tracked again (`C54_fails_clone`), and pieces of untracked Products, which crash when used (`C54_fails_product`).
  * `C54_fails_clone`: C54 fails: a piece of a clone is tracked again and writes rows, here after `Modify`.
  * `C54_fails_product`: C54 fails: extracting twice from an untracked Product dereferences the null context.

### C55 Approximate equality of compositions

compmath::AlmostEq(v, w, t) holds exactly if v and w list the same nuclides and their quantities are within a relative tolerance t of each other; so it is reflexive and symmetric, and with t = 0 it is equality.

* Status: proved.  Exact arithmetic.
* Modelled and proved: Compositions as maps with distinct keys; `AlmostEq` compared with a specification on masses of every nuclide.
* Theorems: `Verif/Props/CompMath.lean`.

  * `C55_almostEq`: **C55.** `AlmostEq` decides "same nuclides, all quantities near each other"; hence it is reflexive and symmetric, and with threshold 0 it is equality.

### C56 The Resources table shows current quantities

For every tracked resource the row of its current state id exists, has its object id, and shows its current quantity unless at most eps_rsrc() of it is left.

* Status: proved.
* Modelled and proved: As C10; the last row of each object is compared with the object after every program.
* Theorems: `Verif/Props/Tracker.lean`.

  * `C56_rows_show_quantity`: **C56.** On tracked resources the row of a resource's current state shows its current quantity, unless at most `eps` of it is left.

### C57 The greedy solver ends without an exception

If no limited capacity mixes zero and positive unit capacities within a group and one ulp at every reachable capacity is at most eps(), GreedySolver::SolveGraph returns normally: the ValueError of GreedySolver::UpdateCapacity for negative remaining capacity is never thrown.

* Status: proved.
* Modelled and proved: As C12; the invariant of the loops excludes each exception.
* Theorems: `Verif/Props/Greedy.lean`.

  * `C57_no_exception`: **C57.** If no limited constraint mixes zero and positive unit capacities and one floating point step is at most `eps()`, the solver ends without an exception or a failed assertion.

### C58 Pseudo cost above every real cost

The pseudo cost that SolveGraph charges for unmet demand is larger than the unit cost of every arc that can be matched, so leaving demand unmet is never cheaper than meeting it.

* Status: proved.
* Modelled and proved: `PseudoCost` as two folds over the arcs; the maximum is characterised independently.
* Theorems: `Verif/Props/Greedy.lean`.

  * `C58_pseudo_cost`: **C58.** With exclusive orders taken into account (the default) the cost of an unmatched unit is larger than the cost of a unit on any arc with positive preference that can be matched at all, so every match lowers the objective.

### C59 The greedy solution is maximal

After a normal return no non-exclusive arc could carry more than eps() additional quantity within the unmet demand of its request group, the quantities of its nodes and the group capacities.

* Status: proved.
* Modelled and proved: As C12: when the solver stops, no arc can take more.
* Theorems: `Verif/Props/Greedy.lean`.

  * `C59_maximal`: **C59.** The greedy solution is maximal: on no non-exclusive arc could more than `eps()` be added within the unmet demand of its request group, the quantities of its nodes, and the capacities (all of those of the supply group, one of those of the request group).

### C60 Preferences are honoured

If a request node receives material over a non-exclusive arc, then every non-exclusive arc of the same node with a higher preference has no room left for more than eps().

* Status: proved.
* Modelled and proved: As C12 with the preconditioned order.
* Theorems: `Verif/Props/Greedy.lean`.

  * `C60_preference`: **C60.** Preferences are honoured: if a request node gets anything on a (non-exclusive) arc, then on every non-exclusive arc of the node with a higher preference nodes or capacities leave no room for more than `eps()`.

### C61 The translated exchange graph is consistent and faithful to the portfolios

The graph built by Translate meets the consistency conditions the greedy solver needs; its request groups hold exactly the requests of each request portfolio with the portfolio's quantity and capacities, its supply groups exactly the bids of each bid portfolio with their capacities, and the unit capacity of every constraint on an arc is the conversion of the bid's offer divided by the offer's quantity.

* Status: proved.
* Modelled and proved: Translation followed over its loops; the graph is related to the portfolios group by group and arc by arc.
* Theorems: `Verif/Props/Translator.lean`.

  * `C61_consistent`: **C61.** The graph that `Translate` builds is consistent: what the solver properties C12 to C16 and C57 to C60 assume of a graph holds for every translated exchange.
  * `C61_request_groups`: Request groups: one per request portfolio, in order, with its quantity, its constraints and the constraint that `Translate` adds, and one node per request.
  * `C61_supply_groups`: Supply groups: one per bid portfolio, in order, with its constraints and one node per bid.
  * `C61_unit_capacities`: Unit capacities: at the bid's end of an arc the converted offer per unit for every constraint of the bid portfolio; at the request's end the same for the constraints of the request portfolio, and last the coefficient of the request.

### C62 Trades resulting from an exchange respect quantities and constraints

The trades obtained by translating an exchange, solving it greedily and translating back supply each request portfolio with at most its quantity, take from each bid portfolio at most what its constraints allow, and never take more than a bid offers; the constraints attached to a request portfolio hold as well.

* Status: partial.  Bounds for bid constraints, request quantities and offers proved; constraints attached to a request portfolio are not enforced because Translate adds the quantity constraint and the greedy solver takes the largest capacity (C62_fails_request).
* Modelled and proved: Translation, greedy solver and back-translation composed.
* Theorems: `Verif/Props/Translator.lean`.

  * `C62_trades`: **C62.** From request and bid portfolios to trades (`ExchangeTranslator` and `GreedySolver` together): the trades keep every constraint of every bid portfolio, give no request portfolio more than its quantity and take from no bid more than it offers, up to the tolerance of an exclusive trade; every trade has a positive preference and more than `eps()`.
  * `C62_fails_request`: **C62 fails for constraints of request portfolios.** `Translate` adds a constraint for the requested quantity to every request portfolio, and the solver takes the most permissive constraint of a request node (C12_fails_request), so a constraint that a requester puts on its portfolio has no effect: here it allows 2, and 10 are delivered.

### C63 The exchange collects every request and bid exactly once in a reproducible order

The exchange holds the request portfolios of all traders, traders taken once each in order of their manager's id, and the bid portfolios with which they answer; each bidder is shown, per commodity, exactly the requests for that commodity; bids are indexed under their requests; the order does not depend on memory addresses when managers have one trader each.

* Status: proved.
* Modelled and proved: `ResourceExchange` over arbitrary traders and an arbitrary world; the calls and the context built are computed exactly.
* Theorems: `Verif/Props/ResourceExchange.lean`.

  * `C63_order`: The order of traders: all traders of the simulation, each once, ordered by the id of their manager (addresses decide only between traders of the same manager).
  * `C63_deterministic`: Determinism: if managers have different ids, the order does not depend on addresses nor on the order in which the context holds the traders.
  * `C63_collect`: **C63.** The exchange consists of the request portfolios of all traders in the order of the traders, and of the bid portfolios with which they answer those requests; bidders see, per commodity, exactly the requests for that commodity; bids are found under their request.

### C64 Preferences are adjusted by the requester and then by all of its ancestors, once each

Each requester's preferences start as the bid's own preference or, if it has none, the request's preference, and are then adjusted by the requester, its manager's parent, and every further ancestor in that order, each exactly once; adjustments by one requester's line never touch another requester's preferences.

* Status: proved.
* Modelled and proved: As C63; the calls of the adjustment walk are the ancestors in order.
* Theorems: `Verif/Props/ResourceExchange.lean`.

  * `C64_preferences`: **C64.** The preferences of a requester start as those of the bids (or, where a bid has none, of the request); then the requester adjusts them, then its manager's parent, the parent of that agent, and so on to the root, each exactly once. Nothing else changes them, and a trader that requests nothing has no preferences.

### C65 Snapshots are taken when asked for

At the beginning of each step, before anything else, a snapshot is made if and only if one was requested since the last one, and exactly one is made after the last step.

* Status: proved.
* Modelled and proved: The timer machine; the steps with a snapshot are compared with the list asked for.
* Theorems: `Verif/Props/Timer.lean`.

  * `C65_snapshots`: **C65.** At every executed step a snapshot is made exactly if one was asked for since the last snapshot, and then once, before anything else happens in the step; and there is exactly one at the end.
  * `C24_end`: The end: the run ends at the given duration, or after the step in which somebody called `KillSim`; the `Finish` row says which, and the last step.

### C66 The listener containers agree

The union of the vectors of Python and C++ listeners is the set of registered listeners in the map tickers_, each listener being in the vector of its kind once for each registration, and the map is sorted by id without repetition.

* Status: proved.
* Modelled and proved: The timer machine; invariant over registrations and unregistrations.
* Theorems: `Verif/Props/Timer.lean`.

  * `C66_listeners`: **C66.** After any set-up and any number `n` of steps, the two vectors together hold exactly the registered listeners (one entry for each registration), and the map holds each once, sorted.

### C67 Family queries

No agent is its own ancestor; AncestorOf, DecendentOf and InFamilyTree terminate, AncestorOf and DecendentOf are converse to each other and hold exactly for proper ancestors, InFamilyTree holds exactly for the agent, its ancestors and its descendants; PrintChildren terminates.

* Status: partial.  All of it except PrintChildren, which recurses for ever when the agent has a child.
* Modelled and proved: The agent tree; ancestry and descendants compared with the reflexive-transitive closure of the parent relation.
* Theorems: `Verif/Props/Agent.lean`.

  * `C67_family`: **C67.** In every state reached by valid calls no agent is its own ancestor; `AncestorOf`, `DecendentOf` and `InFamilyTree` end, `a->AncestorOf(b)` and `b->DecendentOf(a)` agree and hold exactly for proper ancestors, and `InFamilyTree` holds for the agent itself, its ancestors and descendants.
  * `C67_fails_print`: Fails: `GetTreePrintOuts` calls itself for the same agent once per child, so it never ends for an agent that has a child.

### C68 Cumulative cap of the buy policy bounds what it receives in a cycle

A MatlBuyPolicy with a cumulative cap receives at most the cap between two dormant periods, and becomes dormant for the sampled number of steps as soon as less than eps of the cap is left.

* Status: partial.  Proved for buffers that keep materials apart. False for buffers that merge materials (C68_fails_bulk): the quantity is read after Push has set it to zero.
* Modelled and proved: As C47, accepting trades.
* Theorems: `Verif/Props/BuyCycle.lean`.

  * `C68_cap`: **C68, cap**: a policy with a cumulative cap on a buffer that does not merge its materials never receives more than the cap in a cycle, and a cycle that is finished received the cap up to `eps`; the member `cycle_total_inv_` is what was received in the current cycle.
  * `C68_rest`: **C68, rest**: when the cap is reached in step `time`, the policy is dormant in exactly the following `d` steps (once its first active period is over), `d` being the sampled length, and the cycle starts anew.
  * `C68_fails_bulk`: A buffer that merges its materials sets the quantity of a pushed material to zero before the policy adds it up: the policy receives 14 in three successive steps without becoming dormant, with a cap of 10 and a dormant length of 2.

### C69 Dormant periods of the buy policy follow the sampled lengths

A MatlBuyPolicy alternates between active and dormant periods of the sampled lengths, starting with an active period when it is initialised, and asks for nothing while dormant.

* Status: partial.  Proved for fresh policies called in every step with active lengths >= 1 and dormant lengths >= 0. False after ResetBehavior of an always active policy (C69_fails_reset) and for negative samples in the middle of a run (C69_fails_negative).
* Modelled and proved: As C47, over all sequences of steps.
* Theorems: `Verif/Props/BuyCycle.lean`.

  * `C69_periods`: **C69, periods**: with active lengths of at least 1 and dormant lengths of at least 0, a policy that is called in every step is dormant at exactly the times of the dormant periods.
  * `C69_silent`: **C69, silence**: in a dormant period nothing is asked for.
  * `C69_fails_reset`: A policy that was initialised without dormant periods and is then reset and initialised with dormant periods is never dormant: `ResetBehavior` keeps the mark for "always active".
  * `C69_fails_negative`: One negative sample of the dormant length in the middle of a simulation that lies before the current time ends all dormant periods: the end of the period is never met again.

### C70 Bids of the sell policy stay within buffer, throughput, request and package limits

A MatlSellPolicy bids only if at least eps is available; its capacity constraint is at most the content of the buffer and the throughput; the bids on a request add up to no more than the request and the capacity, each bid is one quantum or one package, and their number is one that the transport unit admits. A policy with a quantum accepts only packages that one quantum fills.

* Status: proved.  Bids and acceptance of packages. C70_fails_empty is an extra finding: a quantum below the fill minimum makes SetPackage read the first element of an empty vector.
* Modelled and proved: As C48.
* Theorems: `Verif/Props/SellPolicy.lean`.

  * `C70_bids`: **C70, bids**: a portfolio of bids has a capacity of at most what is in the buffer and the throughput; the bids on a request do not add up to more than the request or the capacity; with a quantum each bid is for one quantum, otherwise it is at most the upper limit of the package; and the number of bids on a request is the number of packages that there would be, or what the transport unit admits of them.
  * `C70_quantum`: **C70, packages for quanta**: a policy with a quantum accepts a package only if a quantum fills exactly one package.
  * `C70_fails_empty`: A quantum below the lower limit of the package is not rejected with an exception: the code reads the first element of an empty vector.

### C71 Sell policy sends no more packages than its transport unit admits

In one time step a MatlSellPolicy sends no more packages than its transport unit admits for the number of trades.

* Status: partial.  Proved for policies that package and a buffer without such packages. False for material that needs no packaging (C71_fails_plain): it is not counted.
* Modelled and proved: As C48.
* Theorems: `Verif/Props/SellPolicy.lean`.

  * `C71_transport_partial`: **C71 (partial)**: a policy that packages what it sells sends no more packages in a step than its transport unit admits of the number of trades. Missing: material that needs no packaging (`C71_fails_plain`).
  * `C71_fails_plain`: Material that needs no packaging is not counted: all five trades are answered, although the transport unit admits three.

### C72 The function factory builds the function its parameters describe

BasicFunctionFactory returns the linear or exponential function with the given coefficients, and rejects unknown names and parameter strings without enough numbers.

* Status: partial.  Proved for enough numbers and unknown names. False for missing parameters (a coefficient that is never initialised) and for words that are no numbers (read as 0).
* Modelled and proved: As C45, words as parameters.
* Theorems: `Verif/Props/Functions.lean`.

  * `C72_factory`: : the factory returns the function that name and parameters describe, if there are enough numbers, and rejects unknown names.
  * `C72_fails_short`: With too few parameters the factory does not fail: the function has a coefficient that was never initialised. This includes a line without intercept, which the function itself defaults to 0.
  * `C72_fails_word`: A parameter that is no number is read as 0, or leaves the parameters after it uninitialised; the factory does not fail.

### C73 Commodity producers keep the information they are given

SetCapacity, SetCost, Add and Rm change exactly the entry of the named commodity, Copy transfers all entries of the source, and queries change nothing.

* Status: partial.  Proved for commodities that are produced. False for others: a query makes the producer a producer of the commodity, with other defaults than its own.
* Modelled and proved: Maps of a producer over all sequences of calls.
* Theorems: `Verif/Props/Commodity.lean`.

  * `C73_entries`: **C73, entries**: a setter changes the entry that it names, `Add` creates an entry with the defaults unless there is one, and `Rm` removes it; nothing else changes.
  * `C73_copy`: **C73, copying**: after `Copy`, every commodity of the source has the entry of the source, and the others are as before.
  * `C73_query`: **C73, queries**: asking for capacity or cost of a commodity that is produced changes nothing.
  * `C73_fails_query`: Asking for the capacity of a commodity that is not produced makes the producer a producer of it.
  * `C73_fails_default`: The entry that a query creates has not the defaults of the producer but those of `CommodInfo`.

### C74 The supply and demand manager evaluates the registered demand

After RegisterCommodity, Demand is the value of the registered function and ManagesCommodity holds for exactly the registered commodities.

* Status: partial.  Proved for registered commodities. False for others: asking for the demand uses a NULL pointer, makes the manager claim the commodity and blocks a later registration.
* Modelled and proved: Maps of the manager over all sequences of calls, with functions from C45.
* Theorems: `Verif/Props/Commodity.lean`.

  * `C74_demand`: : the demand of a registered commodity is that of the function that was registered first; registering does not change other commodities.
  * `C74_fails_unknown`: The demand of a commodity that is not registered is a use of a NULL pointer, and asking for its function makes the manager claim to manage it.
  * `C74_fails_lost`: A commodity that was asked for before it was registered can not be registered any more.

### C75 Registering tables adds to what is stored and is answered

A register_tables request makes the memory backend store the named tables besides those it stored before, a deregister_tables request makes it store all but the named ones, the cached tables that are still stored stay, and a registry message follows each; a registry_request is answered by the sorted names of the registered tables.

* Status: partial.  Proved for backends with a registry. False while everything is stored (the setting of the server): registering restricts storing to the named tables, deregistering stops it. No registry message is ever sent after these requests: send_registry() is called without its argument.
* Modelled and proved: As C37, with the actions that register and deregister tables.
* Theorems: `Verif/Props/MemBack.lean`.

  * `C75_register_partial`: Registering, for a backend with a registry: the named tables are stored besides those already registered, and what is cached stays.
  * `C75_deregister_partial`: Deregistering, for a backend with a registry: the named tables are no longer stored and are dropped from the cache if they were registered; the others stay.
  * `C75_request`: Asking: the answer to a request for the registry lists exactly the registered tables, in order and once each.
  * `C75_fails_all`: The code contradicts C75: registering a table while everything is stored, the setting of the server, stops the storing of all other tables, and deregistering one stops all storing.
  * `C75_fails_all_deregister`: Deregistering a table while everything is stored stops storing of all other tables.
  * `C75_fails_answer`: The code contradicts C75: a registry message is promised for every such request (`cyclus/server.py:92-97, 107-112`), but none is ever sent.

### C76 Decay of a composition depends only on its origin and the total time

Composition::Decay returns what the composition it was created as becomes after the total time, whatever was decayed before and in however many calls; two results with the same origin and total time are one composition with one id, all others are different; compositions never change; nuclides that do not decay are kept.

* Status: partial.  All histories with one length of time steps and a solver that is additive in time. False: the cache ignores the length of time steps, so that a second length gets the results of the first; nuclides unknown to the solver disappear.
* Modelled and proved: Compositions, lines of decay and the cache as a heap; the solver is an arbitrary function that is additive in time. Invariant over all histories, kept with a log of origin and total time of every result.
* Theorems: `Verif/Props/Decay.lean`.

  * `C76_value_partial`: **C76 (partial).** Whatever was decayed before: a composition that goes back to a created one by `k` time steps of decay, in however many calls, contains exactly what the solver says is left after `k * secs` seconds. Missing: time steps of different lengths (`C76_fails_secs`).
  * `C76_shared`: **C76.** Two results that go back to the same created composition by the same total time are one composition (one id, recorded once), and results that differ in origin or total time are different compositions.
  * `C76_immutable`: **C76.** Compositions are immutable: neither creating nor decaying changes one that exists.
  * `C76_create`: Ids given out are new, and creation returns what it was given.
  * `C76_fails_secs`: The code contradicts C76 when time steps of different lengths are used (`composition.h:72-74` lets the caller choose): the cache ignores the length, so that the result for the first length is returned for every other.
  * `C76_fails_unknown`: The code contradicts C76 for nuclides that the solver does not know: they disappear, whatever their half-life and however short the time, even for 0 steps.

### C77 Materials decay for exactly the time that passes

At every time the composition of a material is its initial one decayed for the time from its creation to prev_decay_time(), and after Decay() either that is the current time or the change since is below 0.1% for every nuclide and is caught up later; splitting and combining materials does not lose or add decay time; with decay mode "never" nothing changes.

* Status: partial.  All histories of a material that is decayed to the current time. False: decaying to an earlier time loses the time up to now, with more than 100 nuclides a time before the last decay decays backwards, and combining materials keeps only the time of the larger one.
* Modelled and proved: Materials on top of C76; invariant over all histories of one material.
* Theorems: `Verif/Props/Decay.lean`.

  * `C77_content_partial`: **C77 (partial).** At every moment of its life in a simulation, a material that is only decayed contains exactly what its initial composition has become by the time `prev_decay_time()`, which lies between its creation and now; what happens to other compositions does not matter. Missing: decaying to a time other than now (`C77_fails_early`, `C77_fails_back`) and combining (`C77_fails_absorb`).
  * `C77_call`: **C77.** What `Decay()` does to a material with a context, when decay is not switched off: if there are at most 100 nuclides and none would change by 0.1% or more since `prev_decay_time()`, nothing at all happens, so the time counts for the next call; otherwise the material is decayed up to now. The quantity never changes.
  * `C77_never`: **C77.** With decay mode "never" nothing changes, in whatever way `Decay` is called.
  * `C77_extract`: **C77.** Splitting keeps composition and time of the last decay in both parts, so that both go on to decay alike.
  * `C77_fails_early`: The code contradicts C77 when a material is decayed to a time before the current one (`material.h:140` allows a time to be given): the time between that and the current time is lost, because `Transmute` moves `prev_decay_time()` on to now.
  * `C77_fails_back`: The code contradicts C77 when the time given is before the last decay and there are more than 100 nuclides: the material is decayed backwards, with a negative number of seconds.
  * `C77_fails_absorb`: The code contradicts C77 when materials that were decayed up to different times are combined: the result counts as decayed up to the time of the larger one, so that the smaller one loses (or gains) time. Here two materials of the same composition are combined at time 2, one created at time 0 and one at time 2; decayed before, the older one would have lost three quarters of its nuclide 2.

### C78 Compositions are recorded once, as mass fractions

However often compositions are recorded, the Compositions table has the rows of each recorded composition exactly once: one row for each nuclide, with mass fractions that sum to 1.

* Status: partial.  Exact rows after all sequences of recordings. Compositions without mass have no rows or fractions that sum to 0.
* Modelled and proved: The table as a list of rows; induction over sequences of recordings.
* Theorems: `Verif/Props/Decay.lean`.

  * `C78_once`: **C78.** Whatever compositions are recorded, and however often: the rows of a composition are those of its first recording, and there are none if it never was recorded.
  * `C78_fractions_partial`: **C78 (partial).** The rows of a composition that contains anything are its mass fractions: they sum to 1 and are in the proportions of `mass()`. Missing: compositions of no mass (`C78_fails_blank`).
  * `C78_fails_blank`: The code contradicts C78 for compositions of no mass: they leave no trace in the table if they are empty, and otherwise fractions that sum to 0.

### C79 Explicit inventory tables show what agents hold

With explicit_inventory the ExplicitInventory table gets, at every time step and for every inventory of every agent in the simulation, one row per nuclide with its mass, which sum to the quantity held; with explicit_inventory_compact one row with the quantity and the mass fractions; writing them changes no resource.

* Status: partial.  All agents and inventories of materials, when the decay mode is not lazy. False: materials with an empty composition have no rows, an inventory whose first object is no material is skipped, and one whose later object is no material dereferences NULL.
* Modelled and proved: The materials of C08, cloned and combined; invariant of the loop, then induction over inventories and agents.
* Theorems: `Verif/Props/Inventory.lean`.

  * `C79_inventory`: **C79 (one inventory).** Writing an inventory of materials succeeds, changes no material and no composition, and appends exactly the rows that describe it.
  * `C79_tock_partial`: **C79 (partial).** At the end of Tock, whatever the agents, their inventories (of materials) and the order in which they are visited: nothing fails, no material and no composition that existed is changed, agents that have not entered the simulation are not mentioned, and the rows written are, inventory by inventory, exactly those that describe it. Missing: inventories that hold other resources as well (`C79_fails_mixed`, `C79_fails_null`) and materials with an empty composition (`C79_fails_blank`).
  * `C79_off`: **C79.** If both settings are off, nothing is written.
  * `C79_fails_blank`: The code contradicts C79 for materials with an empty composition: their quantity is in no row of ExplicitInventory.
  * `C79_fails_mixed`: The code contradicts C79 for inventories that hold materials and other resources: if another resource comes first, no material is written.
  * `C79_fails_null`: The code contradicts C79: if a material comes first and another resource second, a NULL pointer is used.

### C80 Material queries agree with the composition and with extraction

MatQuery gives mass fractions, masses, atom fractions and moles of a nuclide, and fractions of sets of nuclides, that follow from the composition and quantity; all fractions sum to 1 and all masses to the quantity; Amount(c) is the largest quantity of composition c that the material contains, and extracting it succeeds.

* Status: partial.  All queries of materials with some mass in the composition. False for sets of nuclides of an empty material, whose mass fraction is 0/0.
* Modelled and proved: Materials as a quantity and a map of masses; `Amount` is characterised as a greatest element, extraction is that of C08.
* Theorems: `Verif/Props/MatQuery.lean`.

  * `C80_mass`: **C80.** `mass_frac` and `mass` give the fraction and the mass of the nuclide.
  * `C80_sum`: **C80.** The mass fractions of all nuclides of a material sum to 1 and their masses to the quantity.
  * `C80_set`: **C80.** A set of nuclides has the sum of their mass fractions, for a material that is not empty.
  * `C80_atom`: **C80.** `atom_frac` gives the atoms of the nuclide as a fraction of all atoms, where a mass `x` of a nuclide has `x / am` atoms.
  * `C80_atomset`: **C80.** A set of nuclides has the sum of their atom fractions.
  * `C80_moles`: **C80.** Moles are mass by molar mass; their proportions are those of the atom fractions.
  * `C80_amount`: **C80.** `Amount` is the largest quantity of a composition that is contained in the material: as much of it as leaves no nuclide negative, and no more.
  * `C80_extract`: **C80.** What `Amount` promises can be extracted: `ExtractComp` of that quantity does not throw and gives it.
  * `C80_fails_empty`: The code contradicts C80 for an empty material: the fraction of a set of nuclides is `0 / 0`, although the fraction of each of them is defined.

### C81 Uranium assays and the quantity of uranium

UraniumAssayAtom and UraniumAssayMass give the fraction of U-235 in U-235 and U-238 by atoms and by mass, between 0 and 1 and 0 without uranium, and each determines the other; UraniumQty is the mass of uranium.

* Status: partial.  The assays for all materials; the quantity if U-235 and U-238 are the only isotopes of uranium. False: other isotopes are not counted.
* Modelled and proved: As C80; atomic masses are arbitrary positive numbers.
* Theorems: `Verif/Props/MatQuery.lean`.

  * `C81_atom`: **C81.** The atom assay is the number of atoms of U-235 by that of U-235 and U-238, and is a number between 0 and 1; without either it is 0.
  * `C81_mass`: **C81.** The mass assay is the mass of U-235 by that of U-235 and U-238, and is a number between 0 and 1; without either it is 0.
  * `C81_convert`: **C81.** The two assays of one material describe the same ratio of isotopes: an atom assay `a` means a mass assay of `a M₅ / (a M₅ + (1 - a) M₈)`.
  * `C81_qty_partial`: **C81 (partial).** `UraniumQty` is the mass of uranium if its only isotopes are U-235 and U-238. Missing: materials with other isotopes of uranium (`C81_fails_other`).
  * `C81_fails_other`: The code contradicts C81: uranium of other isotopes than 235 and 238 is not counted, here a material that is all U-234.

### C82 A resource map knows its quantity and survives restarts

ResMap::quantity() is the sum of the quantities of the resources in the map; assignment, Pop and erase affect one key only; writing the object ids and giving back the restored resources puts each under its key.

* Status: partial.  All histories in which resources change only while the sum is not cached, and restarts with each resource under one key. False: the cached sum is not updated when a resource changes or a reference is written, a read of a missing key stores a null pointer that crashes quantity(), and a resource under two keys loses one.
* Modelled and proved: The map with its dirty flag and a heap of resources; invariant over all histories.
* Theorems: `Verif/Props/ResMap.lean`.

  * `C82_quantity_partial`: **C82 (partial).** `quantity()` is the sum of the quantities of the resources in the map, after every history in which resources in the map change only after it was accessed; it fails only for null pointers and changes neither the map nor the resources. Missing: changes of resources in the map after `quantity()` was called (`C82_fails_stale`, `C82_fails_reference`).
  * `C82_keys`: **C82.** Assignment sets one key; `Pop` returns and removes the resource of one key or throws a `KeyError` and changes nothing; `erase` removes one key; all other keys keep their resource. `clear` removes all.
  * `C82_restart_partial`: **C82 (partial).** Restart: the object ids of a map, given to an empty map together with the restored resources in any order, put every resource back under its key. Missing: maps that hold one resource under two keys (`C82_fails_shared`).
  * `C82_fails_stale`: The code contradicts C82: after `quantity()` the sum is cached, and a resource in the map that is split or combined does not invalidate it, so that the next `quantity()` is wrong.
  * `C82_fails_reference`: The code contradicts C82: writing through a reference returned by `operator[]` before `quantity()` was called does not invalidate the cached sum either.
  * `C82_fails_null`: The code contradicts C82: reading a key that is missing stores a null pointer, after which `quantity()` crashes, although a const `operator[]` is offered.
  * `C82_fails_shared`: The code contradicts C82: a resource under two keys is restored under one of them only.

### C83 Discovery finds exactly the archetypes a library exports

DiscoverArchetypes finds exactly the names that follow the word Construct in the text of a library; DiscoverSpecsInDir looks at exactly the libraries in a directory, recursively.

* Status: partial.  All texts that do not begin with the word, up to an empty name, and the files of one directory. False: a text that ends in the word yields an empty name, one that begins with it reads before its start, and directories are not searched recursively.
* Modelled and proved: The text as a list of characters, scanned as the code does; occurrences are specified by concatenation.
* Theorems: `Verif/Props/Discovery.lean`.

  * `C83_names_partial`: **C83 (partial).** The names found in a text that does not begin with `Construct` are exactly the archetypes named in it by whole words, apart from an empty name if the text ends in the word `Construct`. Missing: that last name (`C83_fails_end`) and texts that begin with the word (`C83_fails_begin`).
  * `C83_files_partial`: **C83 (partial).** `DiscoverSpecsInDir` looks at exactly the libraries that are files of the directory itself. Missing: those in directories below it (`C83_fails_recursive`).
  * `C83_fails_end`: The code contradicts C83: a text that ends in the word `Construct` yields an archetype without a name.
  * `C83_fails_begin`: The code contradicts C83: for a text that begins with `Construct` it reads the character before the first one.
  * `C83_fails_recursive`: The code contradicts C83: the documentation promises a recursive search, but libraries in directories below the given one are never looked at.

### C84 Modules and data files are taken from the first place that has them

CYCLUS_PATH is split at its delimiters; a module is taken from the first of its directories, the install path and the build path that has it; a data file from its variable, the install path or the build path; and an IOError is thrown exactly if nothing is found.

* Status: proved.  All values of the environment and all file systems; the existence of files is an arbitrary predicate.
* Modelled and proved: Paths as texts; existence and joining of paths are arbitrary functions.
* Theorems: `Verif/Props/Discovery.lean`.

  * `C84_split`: **C84.** The directories of `CYCLUS_PATH` are the parts of its value between the delimiters: none contains one, and joined by them they give the value.
  * `C84_module`: **C84.** A module is looked for in the directories of `CYCLUS_PATH` in their order, then in the install path, then in the build path, and the first that exists is taken; if none exists a Python module of the given name is taken, and otherwise an `IOError` is thrown.
  * `C84_data`: **C84.** A data file is the one that the environment variable names if it exists, else the one in the install path, else the one in the build path; an `IOError` is thrown if and only if none exists.
  * `C84_unset`: If `CYCLUS_PATH` is not set it still contributes one directory, the empty one, which is searched first.

### C85 Positions keep coordinates and give great-circle distances

A Position accepts exactly latitudes from -90 to 90 and longitudes from -180 to 180 and is unchanged otherwise; coordinates read back within a tenth of a second, within range, and can be set again without change; Distance is the length of the arc on a sphere of radius 6372.8 km, symmetric, 0 to itself and with the triangle inequality.

* Status: proved.  All coordinates; doubles are exact numbers.
* Modelled and proved: Rounding over the rationals; distance over the reals, compared with the angle of unit vectors in space.
* Theorems: `Verif/Props/Position.lean`.

  * `C85_range`: **C85.** A coordinate is accepted exactly if it is in its range (-90 to 90, -180 to 180); otherwise a `ValueError` is thrown and the position is unchanged.
  * `C85_roundtrip`: **C85.** A coordinate that is set reads back within a twentieth of a second and half a millionth of a degree; the ends of the ranges read back exactly, and nothing reads back outside of them.
  * `C85_stable`: **C85.** What was read can be set again without change, as often as one likes.
  * `C85_distance`: **C85.** `Distance` is the length of the arc between the two points on a sphere of radius 6372.8 km: the angle between their directions, times the radius.
  * `C85_metric`: **C85.** Distances are symmetric, not negative, at most half the circumference, 0 from a position to itself, and satisfy the triangle inequality; the square roots are of numbers between 0 and 1.

### C86 Positions are written as ISO 6709 degrees, minutes and seconds

ToString(DEGREES_MINUTES_SECONDS) writes sign, degrees, minutes and seconds whose value is the stored coordinate, each with its fixed number of digits and minutes and seconds below 60.

* Status: partial.  The value for all coordinates; the text for all with seconds other than 0 and 10. False: whole minutes can be written as 60 seconds of the previous one, 10 seconds with three digits, and zero with a minus sign.
* Modelled and proved: The text as a list of characters, compared with the text of ISO 6709 built from the stored tenths of seconds.
* Theorems: `Verif/Props/Position.lean`.

  * `C86_value`: **C86.** The value of the text is the stored coordinate: degrees, minutes and seconds that are written add up to the tenths of seconds stored (`k`), for every coordinate.
  * `C86_text_partial`: **C86 (partial).** For every coordinate in range whose seconds are not 0 or 10, the text is the one of ISO 6709: sign, two (longitude: three) digits of degrees, two of minutes, two of seconds and a decimal. Missing: coordinates with 0 or 10 seconds (`C86_fails_sixty`, `C86_fails_pad`, `C86_fails_zero`).
  * `C86_fails_sixty`: The code contradicts C86: two minutes of latitude are written as one minute and sixty seconds.
  * `C86_fails_pad`: The code contradicts C86: one minute and ten seconds are written with a digit too many.
  * `C86_fails_zero`: The code contradicts C86: the equator is written with a minus sign.

### C87 A Source offers and supplies at most its capacity

A Source bids on every request for its commodity and on no other, offering the smaller of the request and its capacity with its recipe (or the composition asked for) under one constraint of its capacity; trades within the capacity are answered with exactly their quantities and that composition, trades beyond it throw.

* Status: partial.  Trades for all sources; bids for sources of positive capacity, unless asked for more than the capacity without a recipe. False: without a recipe all that is asked for is offered, and a source of capacity 0 throws as soon as it is asked.
* Modelled and proved: The loops over requests and trades as recursive functions; compared with the promised offers.
* Theorems: `Verif/Props/Archetypes.lean`.

  * `C87_bids_partial`: **C87 (partial).** A source with a positive capacity answers every request for its commodity, and no other, with what is promised, under one constraint of its capacity. Missing: sources without a recipe that are asked for more than their capacity (`C87_fails_offer`), and sources of capacity 0 (`C87_fails_zero`).
  * `C87_trades`: **C87.** Trades that together do not exceed the capacity (by more than the tolerance) are each answered with exactly the traded quantity, of the recipe or the composition asked for; trades that exceed it throw a `ValueError`.
  * `C87_unknown`: **C87.** A source whose recipe does not exist throws a `KeyError` as soon as there is something to answer.
  * `C87_fails_offer`: The code contradicts C87: without a recipe, a source offers all that is asked, here 30 with a capacity of 10.
  * `C87_fails_zero`: The code contradicts C87: a source of capacity 0, which its range allows, throws a `ValueError` as soon as its commodity is requested.

### C88 Sinks and KFacilities request what they can accept and keep what they get

A Sink requests its capacity of each of its commodities, and receives no more than that and no more than its inventory holds in a time step; a KFacility requests and offers amounts that follow a power law and supplies at most its capacity in a time step, in however many calls; all that is received enters the inventory.

* Status: partial.  All numbers of steps, all calls, and inventories with space. False: a full inventory does not reduce the request, so that receiving throws, and a sink asks for its capacity twice, of materials and of products.
* Modelled and proved: As C87, with the buffer of C01 as the inventory; induction over steps, and over the calls in one step.
* Theorems: `Verif/Props/Archetypes.lean`.

  * `C88_requests`: **C88.** A sink with a capacity above the tolerance requests that capacity of each of its commodities, under one constraint for all of them, and otherwise nothing: of materials, with the recipe if it has one, and of products.
  * `C88_accept_partial`: **C88 (partial).** What a sink or a k-facility receives enters its inventory, in order and completely, if there is space for it. Missing: inventories without the space (`C88_fails_full`).
  * `C88_power`: **C88.** Requests and offers of a k-facility follow a power law: after `n` steps it requests `in kIn ^ n` and offers and supplies at most `out kOut ^ n`.
  * `C88_step`: **C88.** In one step a k-facility supplies at most its capacity (within the tolerance), in however many calls: each call succeeds, with exactly the traded quantities of its recipe, as long as the capacity is not exceeded, and throws a `ValueError` when it is.
  * `C88_fails_full`: The code contradicts C88: a sink and a k-facility whose inventory is full go on requesting their capacity, and throw a `ValueError` when they receive it.
  * `C88_fails_twice`: The code contradicts C88: a sink asks for its capacity of materials and again of products, so that it can receive twice what it can accept in a time step.

### C89 Predators and prey live, hunt, give birth and die as documented

Prey offers one unit of itself, is dead exactly if some of it was eaten, and has children every birth_freq steps; a predator hunts every hunt_freq steps, drops the documented share of bids, has children exactly when full, and dies at its lifespan; nobody gives birth when dying unless birth_and_death.

* Status: partial.  All lives and meals, and hunts with a success between 0 and 1. False: a success above 1 runs out of a vector, and consumption is carried over time steps although documented per time step.
* Modelled and proved: Each call as a function of the members; the life of a predator as an inductive relation over all meals.
* Theorems: `Verif/Props/Archetypes.lean`.

  * `C89_prey`: **C89.** Prey offers itself, one unit, to every request for its commodity, and is eaten (dead) exactly if some of it is traded; more than one unit throws a `ValueError` and leaves it alive.
  * `C89_prey_tock`: **C89.** In a tock prey asks to be removed exactly if it was eaten, has its children exactly every `birth_freq` steps (not when eaten unless `birth_and_death`), and becomes one step older.
  * `C89_hunt_partial`: **C89 (partial).** With a success between 0 and 1 a predator sets the preferences of the `⌊n (1 - success * factor)⌋` bids with the smallest ids to -1 and leaves the others, where `factor` is the ratio of prey to predators if that counts and is below 1. Missing: a success outside of that range (`C89_fails_success`).
  * `C89_requests`: **C89.** A predator hunts exactly every `hunt_freq` steps, for `hunt_cap`.
  * `C89_life`: **C89.** The life of a predator that is not dead at its start: in each step it asks to be removed exactly if it is at least `lifespan` old, and has its children exactly if it ate `full` units since it last had some and (unless `birth_and_death`) is not too old.
  * `C89_fails_success`: The code contradicts C89: with a success above 1 (the range is in the documentation only) the number of bids to drop is negative and the loop runs out of the vector, whatever bids there are.
  * `C89_fails_carry`: The code contradicts C89: `consumed` is documented as the units consumed per time step, but is carried on, so that a predator that never eats `full` units in a step has children.

### C90 LMatrix computes sums, products and powers of matrices

An LMatrix of n rows and m columns stands for a matrix: elements are read and written at their place, A + B, A - B, k * A, A * B and A ^ k are the sum, difference, multiple, product and power, identity(n) is the identity, AddRow appends a row, and operands whose sizes do not fit leave A unchanged.

* Status: partial.  Everything for all sizes, except products of a matrix that is not square and powers below 1. False: the inner loop of the product runs over the rows instead of the columns, so that terms are missing or memory outside of a row is read; A ^ 0 is A.
* Modelled and proved: Vectors of vectors with partial access, loops as monadic folds over the cells; a relation `Denotes` to Mathlib's matrices and one lemma about loops that write every cell once.
* Theorems: `Verif/Props/LMatrix.lean`.

  * `C90_elements`: C90: a new matrix is zero, `identity(n)` is the identity, `A(i, j)` is the element, `A(i, j) = v` changes that element alone, `A = B` copies, and `AddRow` appends a row of the right length.
  * `C90_sums`: C90: `A + B`, `A - B` and `k * A` are the sum, the difference and the multiple.
  * `C90_sizes`: C90: matrices whose sizes do not fit are left as they are.
  * `C90_product_partial`: C90, in part: `A * B` is the product if `A` is square. Missing: a matrix `A` that is not square (`C90_fails_wide`, `C90_fails_tall`).
  * `C90_power_partial`: C90, in part: `A ^ k` is the power of a square matrix for `k ≥ 1`. Missing: `k = 0` (`C90_fails_power`).
  * `C90_fails_wide`: C90 fails: the product of a matrix with fewer rows than columns leaves terms out.
  * `C90_fails_tall`: C90 fails: the product of a matrix with more rows than columns reads outside of its rows.
  * `C90_fails_power`: C90 fails: `A ^ 0` is `A`, not the identity.

### C91 UniformTaylor solves dx/dt = A x to the requested accuracy

MatrixExpSolver(A, x0, t) terminates; it throws a ValueError if the sizes differ or an exponential is out of range, else it returns a vector that differs from the solution x(t) of dx/dt = A x, x(0) = x0 by at most 0.001 of the sum of |x0|; for decays no amount is negative or above the exact one and the total is kept up to 0.001.

* Status: partial.  Termination and the value of the series for all matrices; the error bound for the matrices of decays (nothing negative off the diagonal, no positive column sum) against every solution of the differential equation. False for other matrices: the number of terms is chosen from the diagonal alone.
* Modelled and proved: The solver over the reals with fuel for the search of the number of terms. The solution is the matrix exponential of Mathlib, unique by its theorem for differential equations; the error is the rest of the exponential series in the norm of sums of absolute values.
* Theorems: `Verif/Props/UniformTaylor.lean`.

  * `C91_series`: C91: for every matrix the result is the series of `exp(-α t) exp(t (A + α))`, cut off as soon as the series of `exp(α t)` has reached `1 - 10⁻³` of its value, where `α` is the largest absolute value on the diagonal.
  * `C91_size`: C91: vectors of another length are rejected.
  * `C91_accuracy_partial`: C91, in part: for the matrix of a decay and `t ≥ 0` the result differs from the solution by at most `10⁻³` of the total (sums of absolute values). Missing: other matrices (`C91_fails_general`).
  * `C91_sign_partial`: C91, in part: for the matrix of a decay and `t ≥ 0` no amount is negative or above the exact one. Missing: other matrices.
  * `C91_total`: C91: a decay that loses nothing (columns that sum up to zero) keeps between `1 - 10⁻³` and all of the total.
  * `C91_fails_general`: C91 fails: for other matrices the result can be far away from the solution.

### C92 Decayer tracks the decay chains and solves the decay equations

The tracked nuclides are those of the compositions and the ones they decay into, each with its own column; the matrix is the decay matrix of the tracked nuclides; Decay followed by GetResult yields the solution of the decay equations to 0.001 of the total; instances do not affect each other.

* Status: partial.  All histories, all data and orders. The result is within 0.001 of the decay equations if no decay constant is taken for zero. False: the heuristic for stable nuclides tests exp(-2903040000 lambda) == 0, which holds for the nuclides that decay fast, and these are then kept for ever; a second instance with new nuclides makes the first one throw; GetResult keeps old amounts.
* Modelled and proved: The static tables as association lists; an invariant with the nuclides whose daughters are still missing, by induction over the recursion and the history; then C91.
* Theorems: `Verif/Props/Decayer.lean`.

  * `C92_tables`: C92: in every history the tracked nuclides are different, closed under decay, and have the columns `1, 2, …, n` of the matrix; the tables hold their decay constants and branching ratios.
  * `C92_construct`: C92: the constructor adds the nuclides of the composition and those they decay into at the end of the list, and no others; the matrix is the decay matrix of all tracked nuclides and the vector holds the composition.
  * `C92_ends`: C92: the constructor ends if the nuclides decay into finitely many others.
  * `C92_result`: C92: `GetResult` writes the positive amounts of the tracked nuclides and nothing else.
  * `C92_decay_partial`: C92, in part: construct, decay, read. If no decay constant is so large that the heuristic takes it for zero, the result is (up to the range of the exponentials) within `10⁻³` of the solution of the decay equations, not negative and never above it. Missing: nuclides that decay fast (`C92_fails_short`), and other instances in between (`C92_fails_shared`).
  * `C92_fails_short`: C92 fails: whatever positive number the smallest representable one is, a nuclide that decays fast enough is taken for a stable one: 5 atoms stay 5 atoms, where `5 exp(-λ)` of them should be left.
  * `C92_fails_shared`: C92 fails: after the construction of a second instance with a new nuclide the first one cannot decay any more.
  * `C92_fails_stale`: C92 fails: `GetResult` does not clear the composition: a nuclide of which nothing is left keeps the amount that was there before.

### C93 The random numbers keep their documented ranges and depend on the seed alone

Truncated normal samples are the first variate between the limits, uniform, binomial and other samples lie in the documented ranges and never exceed max(), constructors reject invalid parameters, and after Initialize every sequence of draws is determined by the seed.

* Status: partial.  All engines, parameters and states. False: random_uniform_int includes the upper limit that is documented as excluded; makeNormalDist ignores its limits; limits in the wrong order loop for ever; the Poisson distribution uses its mean before it is set, p() of the binary distribution is never set and that of the binomial one is cut to an integer; the negative binomial distribution counts failures instead of trials.
* Modelled and proved: Boost's engine and distributions as arbitrary functions of a state, with their documented promises as a hypothesis where needed; the rejection loops with fuel.
* Theorems: `Verif/Props/Random.lean`.

  * `C93_truncated`: C93 (truncation). `random_normal_real` and a sample of `NormalDoubleDist` return exactly the first normal variate that lies between the limits, both of which are included, and use up the variates before it and it; this holds for all parameters, limits and states of the engine.
  * `C93_ends`: C93 (termination). A truncated normal distribution answers exactly if one of the variates to come lies between the limits; with the lower limit above the upper one it never answers.
  * `C93_int`: C93 (integers). `random_normal_int` and a sample of `NormalIntDist` return the integer nearest to the first variate between the limits, the even one in case of a tie; rounding does not lead out of the limits.
  * `C93_ranges`: C93 (ranges). Provided Boost keeps its promises: a sample of a distribution object never exceeds what its `max` reports, for uniform objects with `min < max`; integer samples lie between the limits, at most at the number of trials, at one of the two choices, and are not negative where the distribution has no negative values.
  * `C93_uses`: C93 (uses). A use of the generator through the context gives the number that the distribution gives, in its range, and leaves the engine where the draw left it: nothing is drawn twice.
  * `C93_constructors`: C93 (constructors). The constructors reject exactly: equal limits of a normal distribution; fewer than one trial or success, or a probability outside of [0, 1]; a negative rate; a negative probability of a choice.
  * `C93_reproducible`: C93 (reproducibility). Once the generator is initialised, all numbers that any sequence of uses returns are determined by the seed, whatever happened before; seeds that agree in their lower 32 bits give the same numbers.
  * `C93_fails_uniform_int`: C93 fails: `random_uniform_int` is documented to give integers in `[low, high)` (header line 79), but the upper limit itself is returned, with an engine that keeps all promises.
  * `C93_fails_make_normal`: C93 fails: the limits given to `makeNormalDist` have no effect; its numbers leave them.
  * `C93_fails_limits`: C93 fails: a lower limit above the upper one is accepted by the constructors, and sampling then never ends, whatever the engine does.
  * `C93_fails_parameters`: C93 fails: a Poisson distribution does not depend on the mean it is given but on what was in memory, and a valid mean may be refused because of it; `p` of the binomial distributions is 0 for every probability below 1; `p` of a binary distribution is what was in memory.
  * `C93_fails_trials`: C93 fails: `NegativeBinomialIntDist` is documented to return the number of trials needed to reach the successes (header lines 278-281), which is never below the number of successes; the samples are the failures that Boost counts, and may be 0.

### C94 The registries answer what was registered, and a restart restores them

After any sequence of uses of the context, a recipe is the last one added under the name, a package or transport unit the first valid one, a prototype the last overwriting one or else the first; other names and invalid types raise KeyError or ValueError and change nothing; AgentVersions has one row per archetype; loading the recorded tables restores all registries.

* Status: partial.  Lookups, refusals and versions for all histories; loading is exact whenever no prototype name was recorded twice and the reserved names were left alone. False: a database with an overwritten prototype cannot be loaded; a type may take the reserved name before the unlimited type exists, and is lost; a transport unit without upper limit in the input file converts the largest double to int, which is undefined.
* Modelled and proved: The maps of the context and the tables as lists; the history of uses as a list, induction from its end; the specification says which use of the history registered the name.
* Theorems: `Verif/Props/Registry.lean`.

  * `C94_recipes`: C94 (recipes). After any sequence of uses, `GetRecipe` returns exactly the composition that was last added under the name, and throws a `KeyError` if none was; every recipe that was added is in the table `Recipes`, in order.
  * `C94_packages`: C94 (packages and transport units). After any sequence of uses, `GetPackage` and `GetTransportUnit` return exactly the first valid type that was added under the name, and throw a `KeyError` if there was none; the reserved names always give the unlimited type.
  * `C94_prototypes`: C94 (prototypes). After any sequence of uses, the prototype of a name is the last one that was added with permission to overwrite, or else the first one that was added; a name has no prototype only if none was added.
  * `C94_refusals`: C94 (refusals). Adding throws exactly in these cases, and then leaves everything as it was: a `KeyError` for a prototype whose name is taken and that may not overwrite; a `KeyError` for a package or unit whose name is taken; a `ValueError` for one whose name is free, but that is invalid or has the reserved name once the unlimited type exists.
  * `C94_versions`: C94 (versions). After any sequence of uses, the table `AgentVersions` has exactly one row for each archetype that occurs in the table `Prototypes`, with the version that one of the prototypes added had.
  * `C94_load_partial`: C94 (loading). For every sequence of uses that leaves the reserved names alone: filling a new context from the database that the uses have written gives back all recipes, packages, transport units and prototypes (the latter with the versions that the modules now have), and writes the same rows, exactly if no name occurs twice in the table `Prototypes`. The full statement has no such condition; see `C94_fails_overwrite`.
  * `C94_load_refuses`: C94 (faulty tables). Loading packages or transport units succeeds only if the rows with other than reserved names are valid and have different names that are not taken; it stops with an error otherwise.
  * `C94_input`: C94 (input file). A package of the input file that is accepted is found under its name, with the limits and the strategy given there, and with the documented default for what is absent; the same holds for a transport unit whose limits are integers.
  * `C94_fails_overwrite`: C94 fails: a database written while a prototype was overwritten cannot be loaded: `LoadPrototypes` adds every row without permission to overwrite, and throws a `KeyError` at the second one.
  * `C94_fails_reserved`: C94 fails: as long as the unlimited type has not been used, a type can be added under its name without an error; it is recorded, but the name never leads to it, and it is lost on loading.
  * `C94_fails_default_limit`: C94 fails: the input file may leave out the upper limit of a transport unit, for which the loader substitutes the largest double; its conversion to `int` is undefined, for every size of the largest double beyond an `int`. A package without a limit is accepted.

### C95 The general information about a simulation survives recording, loading and restarts

The first simulation has the duration, start, seed, tolerances and other values of the input file or their defaults; loading what was recorded gives the same information; after any chain of restarts context, timer and rows hold the information of the first simulation with the parent and the time step of the last restart.

* Status: partial.  Loading, initialisation and chains of restarts for all information that fits an int. False: a restarted process keeps the default global tolerances; its generator starts again at the seed; an invalid month is refused only after its rows are recorded; the information of a branch is always refused and Branch always throws; a duration of 2^31 or more is cut to its lower 32 bits.
* Modelled and proved: The information, the rows and what a process keeps as structures; conversions between 64 bit numbers and `int` in two's complement; induction over the chain of restarts.
* Theorems: `Verif/Props/SimInfo.lean`.

  * `C95_load_partial`: C95 (recording and loading). Whatever the information is: what `LoadInfo` reads from the rows of `InitSim` agrees with it in the label, the decay mode, the duration, the start, the parent simulation, the tolerances and the choice of inventory tables; it agrees in the length of a time step, the seed and the stride exactly if these fit an `int`, and always in their lower 32 bits, so that the generator is in the same state. With no rows it throws a `StateError`. The full statement asks for the same information; the kind of the simulation and the branch time are not restored.
  * `C95_initialise`: C95 (months). `InitSim` accepts exactly the months 1 to 12, and then the context and the timer hold the information, the clock is at the branch time or at 0, and the generator is seeded.
  * `C95_rows`: C95 (rows). `InitSim` adds one row to each of the five tables, with the values given, whether it succeeds or not, and touches no earlier row; loading a simulation with `SimInit::Init` changes no row of the process, whatever has been recorded and whatever is loaded.
  * `C95_restarts`: C95 (restarts). After any chain of restarts, each from the output of the one before and in a new process, the context and the timer have the information of the first simulation, with the parent, the kind and the branch time of the last restart; the clock is at the time step asked for (at 0 for a negative one), and the rows of exactly this information are recorded once.
  * `C95_numbers`: C95 (numbers). `strtol` reads decimal numbers with any white space before and any text after them, with or without a sign, and stops at the limits of a 64 bit number.
  * `C95_input_partial`: C95 (input file). For decimal numbers below `2 ^ 31` with any white space around and any values of the optional elements: the first simulation has exactly the duration, start and other values of the input file, and the documented defaults for those that are absent; the clock is at 0, the generator has the seed of the file and the global tolerances are those of the file. This is so after loading the file, and still after `SimInit::Init` has loaded the simulation from the database. The full statement has no bound on the numbers; see `C95_fails_duration`.
  * `C95_fails_tolerance`: C95 fails: the tolerances that the simulation uses (`eps()` and `eps_rsrc()`) are set from the input file only. After a restart of a simulation with any other tolerances than the default ones they are back at the defaults, although the information of the context shows those of the simulation.
  * `C95_fails_random`: C95 fails: the random numbers after a restart do not continue those of the simulation but begin again: whatever the time step, the generator is in the state of a start with the seed, and so a restarted simulation repeats the first numbers of the original one.
  * `C95_fails_month`: C95 fails: a month outside of 1 to 12, which the schema accepts, is refused only after its rows have been recorded.
  * `C95_fails_branch`: C95 fails: information built for a branch is always refused, and `Branch` always throws.
  * `C95_fails_duration`: C95 fails: the schema accepts every `nonNegativeInteger` as the duration, but a number beyond an `int` loses its higher bits: 4294967301 steps become 5.

### C96 Queries of the input file return what the file says

A query yields exactly the nodes on its path in document order; GetString returns the text of the match with the index and throws exactly the documented errors otherwise; numbers and truth values are read exactly; optional parameters take the default exactly if the file has none; a recipe has the nuclides and amounts of the file.

* Status: partial.  Paths, texts, errors, numbers, truth values and recipes for all documents. False: an optional parameter given twice is silently replaced by its default; empty text, text beside a comment and CDATA cannot be read; a nuclide listed twice keeps only its last amount, and white space around the basis of a recipe is refused.
* Modelled and proved: The parsed document as a tree of elements, text, CDATA and comments; matches are specified by positions in the tree, numerals by digits; reading of floating point numbers is an arbitrary function.
* Theorems: `Verif/Props/Infile.lean`.

  * `C96_find`: C96 (paths). A query yields exactly the nodes on its path, from the current node or from the document, each once and in the order of the document; all of them are elements unless the query is `.`. `NMatches` is their number.
  * `C96_string`: C96 (text). `GetString` returns a text exactly if the match with the index is an element whose only child is this text; it throws a `KeyError` exactly if there is no match, a `ValueError` exactly if there is no match with this index or it does not have exactly one child, and a `CastError` exactly if it is not an element or its only child is not text. (The index -1 escapes the check and makes `at` throw.)
  * `C96_elements`: C96 (elements). `NElements` and `GetElementName` count and name the child elements of the current node in order, and `SubTree` moves to the match with the index; all other indices throw a `ValueError` (and -1 makes `at` throw). A subtree keeps the document.
  * `C96_int`: C96 (integers). `Query<int>` returns a number exactly if the text is its decimal numeral, with an optional sign and any white space around, in the range of `int`; it fails as `GetString` does, and with `bad_lexical_cast` on all other texts.
  * `C96_optional_partial`: C96 (optional parameters). If nothing matches, the default is returned. If exactly one element matches, the value is that of its text, as with `Query`. Truth values are those of the first match: true exactly if the text is `true`, `t` or `1` in any case with any white space around. Errors of `GetString` are passed on. The full statement says that the value of the file is used whenever there is one; see `C96_fails_twice` and `C96_fails_text`.
  * `C96_recipe`: C96 (recipes). If `ReadRecipe` succeeds, the basis is exactly `atom` or `mass`, each child `nuclide` has been read, and the composition has each of their nuclides once, with the amount given last for it; so, if no nuclide is listed twice, exactly what the file says. A basis with any other text is refused with an `IOError`; with a valid basis and readable children it succeeds.
  * `C96_fails_twice`: C96 disagreement: an optional parameter that is given twice is silently replaced by its default, whatever the two values are; only for truth values the first is used.
  * `C96_fails_text`: C96 disagreement: the text of an element cannot be read if it is empty, if a comment stands beside it, or if it is a CDATA section.
  * `C96_fails_recipe`: C96 disagreement: of a nuclide that is listed twice, only the last amount is kept instead of the sum, without an error; and white space around the basis, allowed around numbers, is refused.

### C97 The XML made from JSON input says the same

JsonToXml writes, for every JSON object, the text of exactly the elements that its members stand for: an element for each member, or one for each item of an array, nested as the objects are, with texts escaped and numbers kept.

* Status: partial.  Exact text for all objects whose arrays are homogeneous and not empty, whose texts need no escaping and whose numbers have six digits. False otherwise: texts are not escaped, numbers are rounded to six digits, files that are not objects are not refused, arrays with null, empty arrays and mixed arrays give XML that is not well formed or says something else.
* Modelled and proved: JSON values as an inductive type, the writer as mutual structural recursion with the text of the indentation; the specification renders a tree of elements. Rounding to six digits is exact over the rationals; the numeral of a rounded number is an arbitrary function.
* Theorems: `Verif/Props/ToXml.lean`.

  * `C97_convert_partial`: C97 (conversion). For every object whose texts need no escaping, whose numbers have at most six digits, and whose arrays, at any depth, are not empty and consist of objects only or of scalars only: the text is exactly that of the elements that the members stand for, one for each item of an array, nested as the objects are. The full statement has no conditions; see the disagreements below.
  * `C97_numbers`: C97 (numbers). Integers are written as their decimal numerals, which `Query<int>` reads back. A floating point number is written exactly if and only if it has at most six significant digits; in general the relative error is at most 5 in a million.
  * `C97_fails_precision`: C97 disagreement: different numbers are written as the same text, whatever the text is: 1234567 and 1234570.
  * `C97_fails_escape`: C97 disagreement: no text with one of the characters `<`, `>` and `&` is written as XML demands; `{"a": "<b/>"}` becomes an element inside of `a`.
  * `C97_fails_root`: C97 disagreement: a file that is not an object is not refused: `null` and `[]` give an empty text, and a string is taken as XML itself.
  * `C97_fails_null`: C97 disagreement: an array with null and other items gives a start tag without end tag, or an end tag too many, and an array of one null gives an element inside of itself.
  * `C97_fails_empty`: C97 disagreement: an empty array stands for no elements, but is written as an element that contains another of the same name.
  * `C97_fails_mixed`: C97 disagreement: in an array of an object and a text, the white space of the indentation is appended to the text; in an array of arrays a newline is put before the text.

### C98 The JSON made from XML input says the same, and converting back gives the same elements

XmlToJson gives for every document an object in which a text is a string, an empty element null, an element with elements an object, and siblings with the same name an array in document order; it fails for no well-formed document; JsonToXml of the result gives the elements of the document.

* Status: partial.  Values and the exact condition of failure for all documents; the way there and back for documents without text that needs escaping in which siblings of the same name are all texts or all have elements. False: text beside elements or comments is lost, an element with only a comment or CDATA makes the conversion fail with a CastError, repeated empty elements come back nested in one another.
* Modelled and proved: The specification says which value an element stands for as an inductive relation with grouped siblings; induction over the document. The way back goes through C97 and a relation that allows only the order of differently named siblings to change.
* Theorems: `Verif/Props/ToJson.lean`.

  * `C98_values`: C98 (values). The conversion of a root element fails, with a `CastError`, exactly if somewhere inside is an element whose only content is a comment or a CDATA section. Otherwise it gives an object with one member for the root, whose value is an object made of the child elements: each text is a string, an element without text is null, an element with elements is an object, and the values of siblings with the same name form an array in the order of the file.
  * `C98_back_partial`: C98 (there and back). For every root element with elements inside in which no text needs escaping and, at each depth, siblings with the same name all have only text or all have elements: converting to JSON and the result to XML gives the text of the same element, with the child elements sorted by name, those of the same name in the order of the file. The full statement has no conditions; see the disagreements below.
  * `C98_fails_text`: C98 disagreement: text between elements is lost, whatever it is, and the text of an element is lost if a comment stands beside it.
  * `C98_fails_comment`: C98 disagreement: an element that contains only a comment makes the whole conversion fail, although one without content, or with two comments, is converted to null.
  * `C98_fails_empty`: C98 disagreement: two empty elements of the same name come back as two empty elements inside of one of this name.

### C99 Every archetype of the input file is in the master schema and found under its alias

ParseSpecs returns the archetypes that the input file lists, each once and in order; the master schema is the template in which the hole of each kind is replaced by one element for each archetype of the kind, named by its alias; under every alias of the file the loader finds the archetype it was given to.

* Status: partial.  Archetypes, lookups, both schemas and loading for all documents and templates; every alias leads to its archetype if no archetype and no alias is listed twice. False: an archetype listed again under another alias is dropped with its alias, two archetypes with one alias are not refused, the holes of kinds without archetypes stay although the code means to fill them, and the flat loader takes input that is given as text for the name of a file.
* Modelled and proved: Documents as in C96, templates as texts; the parser, the file system and the making of agents are arbitrary functions. The specification describes templates by their texts and holes; replacing the first occurrence is followed through all holes by induction.
* Theorems: `Verif/Props/Schema.lean`.

  * `C99_specs`: C99 (archetypes). For every document: `ParseSpecs` returns exactly the archetypes that the elements `/simulation/archetypes/spec` describe, in the order of the file and without repetitions of an archetype that came before. It fails exactly if there is no such element or one of them describes no archetype, in the first case with a `ValidationError`.
  * `C99_lookup`: C99 (aliases). Under an alias the loader finds the last of the archetypes with this alias, and an empty specification if there is none.
  * `C99_aliases_partial`: C99 (archetypes under their aliases). If no archetype is listed twice and no alias is used twice, every element of the file describes the archetype that the loader finds under its alias. The full statement has no such conditions; see the disagreements below.
  * `C99_schema`: C99 (master schema). For every template with holes, of which each kind has at most one, and all archetypes whose kinds, aliases and schemas have no `@`: the hole of each kind that has archetypes is filled with an element for each of them, in their order, named by the alias and with the schema of the archetype inside; the holes of the kinds `region`, `inst` and `facility` in lower case are always filled; all others stay.
  * `C99_flat`: C99 (flat master schema). For every template with one hole, and all archetypes: the hole is filled with an element for each archetype. An archetype that cannot be made makes both schemas fail with its error.
  * `C99_load`: C99 (loading). Without a format the file is read, `IOError` if there is none, and converted according to its extension; with a format the text itself is the input, converted according to the format. The master schema is made from the text of the schema file and the archetypes of the parsed input.
  * `C99_fails_twice`: C99 disagreement: an archetype listed a second time under another alias is dropped with its alias, which then stands for an empty specification.
  * `C99_fails_alias`: C99 disagreement: two archetypes with the same alias are not refused; the schema admits both, but only the last can be used.
  * `C99_fails_absent`: C99 disagreement: the hole of a kind without archetypes is not filled, although the code forces the kinds to exist; they are forced in lower case, and the kinds begin with upper case.
  * `C99_fails_format`: C99 disagreement: the flat loader does not pass on the format, so an input that is given as text, in whatever format, is taken for the name of a file.

### C100 The initial agents are exactly those that the input file lists

The loader defines one prototype for each facility, institution and region of the input file, made from the archetype that its configuration names; it builds each region, each institution under its region, and as many facilities of each listed prototype under the institution as the file says; each agent has the state of its prototype; names in use and unknown prototypes are refused.

* Status: partial.  Exact prototypes, agents and parents for all documents whose numbers fit into an int, and all refusals. False: the list of facilities of an institution may name regions and institutions, and a number of 2147483648 builds nothing.
* Modelled and proved: Documents as in C96; making an agent from its archetype and element is an arbitrary function. The specification reads a document into regions, institutions and entries and lays out the agents with the positions of their parents; one lemma about loops over matches, used at every level.
* Theorems: `Verif/Props/Initial.lean`.

  * `C100_agents`: C100 (agents). For every document whose definitions of facilities, institutions and regions have different names and can be made, and whose regions list institutions and facilities that are defined: the loader defines exactly these prototypes, each with the state made from its own element, and builds exactly the regions, institutions and facilities of the file, the latter as often as the file says, each with the state of the prototype of its name, and each institution under its region and each facility under its institution.
  * `C100_refuses`: C100 (refusals). A second definition with the same name, of whatever kind, is refused with a `KeyError`, and nothing is built. A definition that cannot be made fails with its error if those before it are in order.
  * `C100_unknown`: C100 (unknown prototypes). A file whose definitions are in order, but which asks for at least one facility of a prototype that is not defined, is refused with a `KeyError`.
  * `C100_fails`: C100 disagreement: the list of facilities of an institution may name regions and institutions, which are then built inside of the institution; a number of 2147483648, which the schema admits, builds nothing.

### C101 Every spelling of a nuclide gives its one identifier

For every nuclide the identifier, the numbers in the forms ZZZAAAM, AAAZZZM and ZZZAAA, the names with symbol and mass number in either order, and the form ZZ-LL-AAAM all give the identifier ZZZAAASSSS; the name and the numbers that are written for a nuclide are read back as it; a number is accepted as nuclide only if it gives an identifier with mass number not below the atomic number.

* Status: partial.  All numeric forms and all names for all nuclides, for the form of MCNP and ZZ-LL-AAAM for most elements. False: MCNP numbers of elements whose atomic number ends in a zero are misread, 0, 200 and 401 are accepted, H-300 is a nuclide, compositions may have the same nuclide under two keys, higher states have the name of the first, 101-Md-258 is read as nobelium 258, U1235 as neptunium 235 and 92U235 as natural uranium, and some numbers overflow.
* Modelled and proved: Numbers as integers with overflow as `none`, texts as lists of characters, the table of symbols copied from the code and compared with a periodic system in the specification. The forms are linear arithmetic; the texts go through a normal form of symbol, digits and mark.
* Theorems: `Verif/Props/Nuc.lean`.

  * `C101_symbols`: C101 (symbols). The table has exactly the symbols of the periodic system, in both directions.
  * `C101_numbers`: C101 (numbers). For every nuclide, its identifier, its number in the form `ZZZAAAM` and, if its element has a symbol, its number in the form of CINDER, `AAAZZZM`, all give its identifier.
  * `C101_elements`: C101 (elements). The atomic number of an element, and its number in any of the forms with mass number 0, give its identifier; that of MCNP, `ZZZAAA`, only if it does not end in a zero.
  * `C101_mcnp_partial`: C101 (MCNP). For elements whose atomic number does not end in a zero, the form of MCNP, `ZZZAAA`, gives the identifier of the nuclide in its ground state, and with `300 + 100 * m` added to the mass number that of its state `m`; for americium 242 MCNP has both the other way round. States above the first need a mass number above three times the atomic number less 100. The full statement is for all elements; see `C101_fails_mcnp`.
  * `C101_fixed_partial`: C101 (fixed points). Whatever number of seven or more digits is accepted, the identifier it gives is accepted as such. The full statement is for all numbers; see `C101_fails_small`.
  * `C101_isnuclide`: C101 (`isnuclide`). A number is a nuclide exactly if it gives an identifier with an atomic number and a mass number that is not below it.
  * `C101_names`: C101 (names). For every element and every mass number up to 999: the symbol in any case, followed by the mass number with or without leading zeros, with or without a dash between them, gives the identifier, and with `M` or `m` behind that of the first state; the mass number followed by the symbol gives the identifier; the symbol alone gives the element. A text of digits gives what the number gives.
  * `C101_digits`: C101 (digits). A text of digits gives what the number gives.
  * `C101_refuses`: C101 (texts that are refused). A text without dashes that starts with a character that is neither a letter nor a digit is refused, and so is a symbol followed by a mass number that an `int` takes for a negative one.
  * `C101_isnuclide_text`: C101 (`isnuclide` of texts). The name of a nuclide, with the dash or the mark of the first state or without, is one; the symbol of an element is not.
  * `C101_back`: C101 (ways back). The name of a nuclide in its ground or first state gives the nuclide back, and so does its number in the form `ZZZAAAM` for the states up to 9.
  * `C101_zzllaaam_partial`: C101 (`ZZ-LL-AAAM`). For elements up to 99, and 100 and 110, the atomic number, the symbol in any case and the mass number with dashes between them, and perhaps `M` or `m`, give the identifier. The full statement is for all elements; see `C101_fails_heavy`.
  * `C101_back_zzllaaam_partial`: C101 (way back from `ZZ-LL-AAAM`). A nuclide in its ground or first state of such an element is given back by its text in this form.
  * `C101_fails_mcnp`: C101 disagreement: thorium 232 in the form of MCNP is taken for the second state of fluorine 23, and neon for hydrogen.
  * `C101_fails_small`: C101 disagreement: 0, 200 and 401 are not refused; the identifiers they give are not those of any nuclide or element, and two of them are refused when given as identifiers.
  * `C101_fails_heavy_hydrogen`: C101 disagreement: 1300, hydrogen with mass number 300, is a nuclide, but its identifier is not.
  * `C101_fails_keys`: C101 disagreement: keys of compositions are checked with `isnuclide`, which accepts numbers that are not identifiers; the same nuclide may occur under several keys.
  * `C101_fails_state`: C101 disagreement: the states above the first all have the name of the first.
  * `C101_fails_heavy`: C101 disagreement: the last digit of the atomic numbers 101 to 109 is taken for a digit of the mass number, so that `101-Md-258` is nobelium 258; and the text for natural hydrogen gives hydrogen 1.
  * `C101_fails_texts`: C101 disagreement: `U1235` is neptunium 235, `92U235` is natural uranium, `UM` is the first state of natural uranium, and a dash alone ends in an exception that `isnuclide` does not expect.
  * `C101_fails_overflow`: C101 disagreement: some numbers make the computation overflow, which is undefined.

### C102 Warnings and log messages appear exactly when they are enabled

Of the warnings of each kind the first warn-limit are shown, then one notice, then nothing, whatever the order of the calls; with warn-as-error every warning throws the error of its kind. A log message is written exactly if its level is at most that of the report and its source is not switched off, in a fixed form; -v accepts every level by number and by name, and each switch affects its own source only.

* Status: partial.  False: SetNoMem (and with it --no-mem of the Python command line) switches off the messages of agents instead, Python's LEV_DEBUG1 is INFO5, -v -1 hides errors, and after 2^32 warnings of a kind they are shown again. The rest holds without restriction.
* Modelled and proved: The counters as a function from kinds to numbers below 2^32, a session as the list of its calls; the counts are determined by induction over the calls. Levels as integers, statements of the logger as functions from settings to the text that is written.
* Theorems: `Verif/Props/Diag.lean`.

  * `C102_warnings`: C102 (warnings). Of the warnings of each kind the first `limit` are written, with the words for the kind in front, then once that further ones are suppressed, and then nothing; independently of those of other kinds, for every sequence of fewer than 2^32 warnings. If warnings are errors, each throws the error of its kind and none is counted.
  * `C102_verbosity`: C102 (verbosity). `-v` with the number of a level or with its name makes it the level of the report; any other text of more than two characters makes that the level of errors. Nothing else is changed.
  * `C102_messages`: C102 (messages). A message of one of the levels is written if its level is at most that of the report and its source is not switched off, and else nothing is; a higher level of the report shows at least the same messages.
  * `C102_form`: C102 (form of messages). A message that is written consists of the level in six places, right aligned, the word for the source in six places in parentheses, left aligned and cut off if it is longer, a colon, two blanks for each level above `INFO1`, the text and the end of the line.
  * `C102_switches`: C102 (switches). The options of the command line and `SetNoAgent` switch off the messages of their source and leave the others as they are.
  * `C102_fails_wrap`: C102 is false for 2^32 warnings of a kind and more: the count starts again from 0, and the warnings are shown again.
  * `C102_fails_no_mem`: C102 is false for `SetNoMem`, which Python's `--no-mem` calls: it switches off the messages of agents and not those of the memory.
  * `C102_fails_debug1`: C102 is false for Python's constant `LEV_DEBUG1`, which is the level `INFO5`; the other constants are right.
  * `C102_fails_verb`: C102 is false for short texts of `-v` that are no levels: `-1` suppresses the messages of errors, and `1x` is taken for 1.

### C103 The command line runs what is asked for and keeps all its data

Options that print something print it and run nothing. With an input file the exit code is 0 exactly if the simulation is loaded, initialised and run without an exception; then the simulation run is that of the file with the schema and format meant, and the output file has exactly the data of the loader and of the simulation. Errors give the exit code 1 with everything recorded before in the output file. With a snapshot db:id:time the simulation of the snapshot is run and all its data are kept; other forms are refused.

* Status: partial.  False: a restarted simulation loses its last (n mod 10000) data although the exit code is 0, since the recorder of SimInit::Restart is never flushed; a restart without an input file ends abnormally; --schema-path is ignored if the input asks for the flat schema; CYCLUS_NO_CATCH=0 disables catching; failing --agent-* options exit with 0; unreadable input files and errors of the initialisation are not caught; the flag of --rng-print is not initialised.
* Modelled and proved: The control flow of `main` over arbitrary functions for the parts it calls, with the recorder of C29 at its default dump count. What arrives in the output file follows from an invariant of the recorder (delivered and buffered data are all recorded data; the buffer holds their number modulo the dump count).
* Theorems: `Verif/Props/Cli.lean`.

  * `C103_information_partial`: . If options are given that only print something, no simulation is run and no output file is opened. The first of them, in the fixed order, prints its text and the exit code is 0. Partial: if its text cannot be made, the exit code may be 0 as well.
  * `C103_usage`: . Without an input file and a snapshot, and with invalid arguments, the exit code is 1, no output file is opened and nothing is run.
  * `C103_run_partial`: . With an input file and without other requests: if the file can be read, the exit code is 0 if and only if the simulation is loaded, initialised and run without an exception. Then the simulation that is run is that of the file, with the flat schema if it is meant, the schema that is meant and the format given; and the output file has got exactly the data recorded by the loader and by the simulation, each once and in order. Partial: a given schema path may not be replaced.
  * `C103_errors_partial`: . An error of the loader, or of the simulation if `CYCLUS_NO_CATCH` is not set, gives the exit code 1, and everything recorded before is in the output file. Partial: other exceptions, and errors while the simulation is initialised, end the program abnormally.
  * `C103_restart_partial`: . With a snapshot `db:id:time` and a readable input file: the exit code is 0 if and only if the simulation is restarted and run without an exception, and the simulation that is run is that of the snapshot. If fewer than 10000 data are recorded before the backend is registered, the output file gets the data of the restarted simulation in blocks of 10000; the remainder is missing. Partial: an input file must be given, and the last data are missing.
  * `C103_restart_spec`: . A snapshot that is not of the form `db:id:time` with a valid id and an integer is refused with the exit code 1; nothing is run.
  * `C103_fails_restart_lost`: **C103, negation**. A simulation restarted from the command line that records fewer than 10000 data succeeds with the exit code 0, but nothing of it is in the output file: the recorder that `SimInit::Restart` makes is never flushed.
  * `C103_fails_restart_no_input`: **C103, negation**. A restart without an input file, which its help and usage allow, ends abnormally after the output file has been opened: the input file with the empty name is read first.
  * `C103_fails_schema_path`: **C103, negation**. A schema given by `--schema-path` is not used if the input file asks for the flat schema.
  * `C103_fails_no_catch`: **C103, negation**. With `CYCLUS_NO_CATCH=0` in the environment, errors of the simulation are not caught, although this value is to switch catching on.
  * `C103_fails_information`: **C103, negation**. If the schema of an agent is asked for and the agent cannot be found, the exit code is 0.
  * `C103_fails_uncaught`: **C103, negation**. An input file that cannot be read, an output file that cannot be created, too many input files, and an error while the simulation is initialised end the program abnormally instead of with an exit code; a file that cannot be read does so after the output file has been opened.
  * `C103_fails_rng_print`: **C103, negation**. The schema may be printed although this was not asked for: the flag is not initialised.

### C104 Snapshots and restarts keep the inventories

What an agent holds in its inventories when a snapshot is taken is what it holds after a restart from that snapshot, whatever happened before and whatever the simulation did afterwards: under each name the same resources in the same order, each with its quantity, composition (mass fractions) or quality, state id, object id, package and time of the last decay.

* Status: partial.  False: package names are not restored; Material::Transmute records the decay time before updating it, so that a restored material decays again for time already accounted for; resources with a quantity of at most eps_rsrc are restored with the quantity they had before; untracked resources have no row (undefined behaviour); the database of a restarted simulation has no rows for restored resources, compositions and qualities, so that it cannot itself be restarted from.
* Modelled and proved: The resources of a simulation with the rows of the tables each call writes, as a state machine over histories. An invariant says that the first row with the id of a tracked resource describes it, that composition rows are written once, and that later rows have fresh ids; reading back at any later time follows.
* Theorems: `Verif/Props/Stock.lean`.

  * `C104_resource_partial`: Every resource above the resolution can be read back from the tables, at once or at any later time, with its quantity, ids and content as they were; the time of its last decay too, if compositions were only changed when it was up to date. Missing for the full property: the package name is not restored (`C104_fails_package`), the decay time is wrong after a transmutation (`C104_fails_decay_time`), emptied resources come back full (`C104_fails_emptied`), and resources that are not tracked cannot be read (`C104_fails_untracked`).
  * `C104_inventories_partial`: Restarting from a snapshot, now or after the simulation has gone on, gives an agent under each name of its inventories the resources it held when the snapshot was taken, in order, with their quantities, ids and contents (and decay times, as above), provided they were tracked and above the resolution and only one snapshot was taken at that time. Missing for the full property: as in `C104_resource_partial`.
  * `C104_fails_package`: The package is lost: whatever is restored is unpackaged.
  * `C104_fails_decay_time`: The decay time recorded with a transmutation is the one before it: a material transmuted at time 5 is restored as if its composition had last changed at time 0, and will decay for these 5 steps again.
  * `C104_fails_emptied`: Resources emptied by an extraction or absorbed into another come back with the quantity they had: 10 kg of material become 20 kg.
  * `C104_fails_untracked`: A resource that is not tracked has no row, and the restart of an agent that holds it is undefined.
  * `C104_fails_again`: The database of a restarted simulation lacks what was restored: a snapshot of it cannot be restarted from while an agent holds a resource it had; what is made of a restored composition is read back blank, and a product of a restored quality not at all.

### C105 The solver the input file asks for solves the exchanges

The exchanges of a simulation are solved by the solver that the control section of its input file names (the greedy solver if it names none), with the options given there or their documented defaults: whether exclusive orders are allowed, the time limit in seconds, verbosity, dumps and preconditioner; unknown names are rejected, other simulations in the same database have no influence, and a simulation restarted from the database has the same solver.

* Status: partial.  False: allow_exclusive_orders does not change what the greedy solver trades (it treats orders as exclusive in any case, while COIN honours the option); any name of a preconditioner is accepted and ignored; a restarted simulation does not record its solver, so that it cannot be restarted. Proved: files that follow the schema yield the solver they ask for with its options and defaults, in any database, without changing the solvers of other simulations; other names and empty configurations are rejected.
* Modelled and proved: Input file and queries are those of C96, the tables are lists of rows with the number of the simulation. The specification describes the control section by its elements in any order with any other nodes around them; queries for optional elements are evaluated by lemmas about paths with one or no match. The effect of exclusive orders uses the models of the solvers (C01, C50).
* Theorems: `Verif/Props/SolverConf.lean`.

  * `C105_choice_partial`: C105 (choice). An input file that asks for a solver is accepted, and the simulation gets that solver with the options of the file, or their defaults, whatever other simulations the database holds. If Cyclus was built without COIN and COIN is asked for, no solver is made. The solvers of other simulations with commodities are as before. Partial: the full property also requires that the options have their meaning. `C105_fails_exclusive`: `allow_exclusive_orders` changes nothing for the greedy solver; `C105_fails_preconditioner`: preconditioners are accepted whatever their name; `C105_fails_restart`: a restarted simulation cannot be restarted.
  * `C105_unknown`: C105 (unknown solvers). An input file whose configuration names any other solver is rejected, and so is an empty configuration.
  * `C105_fails_restart`: Whatever solver the file asks for: the simulation can be restarted, but the restarted simulation cannot, since `LoadSolver` is not called for it and nothing else records the solver.
  * `C105_fails_preconditioner`: The preconditioner may have any name: the file is accepted and the solver is the same, since the commodities keep `LoadPreconditioner` from looking at the name.
  * `C105_fails_exclusive`: `allow_exclusive_orders` does not change what the greedy solver trades: it treats orders as exclusive in any case. COIN, with the same setting, trades the three units.

### C106 Data written to an SQLite file are read back as written

After any number of backends have written any data to the same SQLite file, a query of a title returns the names, the types and the values of all data with this title, exactly and in the order in which they were written; data with a value of an unsupported type are rejected without losing other data.

* Status: partial.  False: NaN is read as 0; texts end at NUL; names of data after the first are ignored, so that values in another order are read under each other's names; another type for a title in an existing file is converted silently, and within one backend its failed cast leaves the transaction open, after which nothing more is saved; a title whose first datum was rejected cannot be written any more, and trying it has the same effect. Proved: all other data of any number of backends are read back exactly; unsupported types are rejected without losing anything.
* Modelled and proved: The file as rows of `FieldTypes` and tables of stored values with affinities; connection, transaction and prepared statements as state. Boost's XML, conversions between texts and numbers and narrowing to `float` are arbitrary functions. A lemma per type shows that a kept value survives binding, affinity and reading; an invariant (the table of each title holds exactly its data, and the statements have the types of the title) is kept by every call and every reopening.
* Theorems: `Verif/Props/SqliteValues.lean`.

  * `C106_rows_partial`: (partial): whatever data are written by whatever number of backends on the same file, one after the other, if the values can be kept and data with the same title have the same names and types, then no call throws, and afterwards a query of any title returns the names, the types and the values of all data with this title in the order in which they were written. Missing: NaN (`C106_fails_nan`), texts with NUL (`C106_fails_nul`), names in another order (`C106_fails_order`) and other types for the same title (`C106_fails_type`, `C106_fails_cast`).
  * `C106_unsupported`: : a value of a type without number, in a datum whose title was not written before by the same backend, makes the call throw `ValueError`; everything before it is saved, also from the same call, and calls with other titles afterwards work as before.
  * `C106_stuck`: : if a call throws anything but `ValueError`, nothing of it is saved, and every later call on the same backend throws `IOError` and saves nothing: the transaction is never ended.
  * `C106_fails_nan`: The property does not hold for NaN: it is read as 0.
  * `C106_fails_nul`: The property does not hold for texts with NUL: only what is before it is kept.
  * `C106_fails_order`: The property does not hold when names come in another order: the names of all data but the first are ignored, so that the values are read under each other's names.
  * `C106_fails_type`: The property does not hold when another backend uses another type for a title in the file: nothing is thrown, and the value is read with the old type.
  * `C106_fails_cast`: The property does not hold when the same backend is given another type for a title: the cast fails, and the transaction stays open, so that the data before it in the same call are not saved, and those of all later calls neither.
  * `C106_fails_retry`: The property does not hold after a value that is not supported either: the title stays in the list of tables although the table was not made, so that the next datum with this title, now with good values, throws `IOError` and leaves the transaction open.

### C107 Ticks and tocks in several threads record what one thread records

However many threads execute the ticks and tocks of the time listeners and however they take turns, every datum is recorded once and complete, ids are unique, builds and decommissionings are scheduled as if the listeners had been executed one after the other in a fixed order, the threads never block each other, and an exception of a listener ends the simulation as it does outside of parallel regions.

* Status: partial.  False: only SchedBuild and SchedDecom are critical sections; time series, explicit inventories and resource ids are not, so that data are lost or mixed and ids are used twice, also the data of a SchedBuild if another thread records at the same time; the order of builds, and hence the ids of agents, depends on the threads; an exception in a parallel region ends the program without saving. Proved: with critical calls only, every execution is one of the calls one by one in an order that keeps that of each thread, without deadlock; with one thread everything is in order.
* Modelled and proved: Threads as lists of accesses to shared memory, an execution as an arbitrary list of turns. An invariant describes every reachable state as one between calls, or one in which a single thread is in the middle of a call and everything is as if it ran alone; the result is an interleaving of the calls. The failures are concrete executions.
* Theorems: `Verif/Props/Threads.lean`.

  * `C107_critical_partial`: (partial): if the listeners only schedule builds and decommissionings, then however many threads there are and however they take turns: nothing undefined happens, the threads never block each other, and when they are done, the data and the queues are those of executing the calls one by one in some order that keeps the order of each thread. Missing: other calls, whose data are lost or mixed (`C107_fails_datum`, `C107_fails_count`, `C107_fails_mixed`), ids (`C107_fails_ids`), an order that does not depend on the threads (`C107_fails_order`), and exceptions (`C107_fails_throw`).
  * `C107_same_data`: : under the same hypotheses, whatever turns the threads take, the same data are recorded and the same builds scheduled, up to their order.
  * `C107_one_thread`: : with one thread, all calls have their effects one after the other, and ids are taken one after the other.
  * `C107_fails_datum`: The property does not hold for data recorded outside of critical sections, as `RecordTimeSeries` and the explicit inventories do: two threads get the same slot, so that one datum is lost, the other has the values of both, and a slot that nobody wrote is recorded.
  * `C107_fails_count`: Nor is every datum counted: with other turns, one increment of the index is lost, and a single datum is recorded.
  * `C107_fails_mixed`: The property does not hold for critical sections either if another thread records outside of them.
  * `C107_fails_ids`: The property does not hold for ids: two resources get the same state id.
  * `C107_fails_order`: The property does not hold for the order: the same calls give the builds of the next time step in another order, and hence other ids to the agents.
  * `C107_fails_throw`: The property does not hold for exceptions: a build scheduled for the past ends the program in the middle of the region, where the same call outside of it throws a `ValueError`; data that are not yet with the backends are lost.

### C108 Sums of amounts are accurate in floating-point arithmetic whatever the number of terms

With rounding to a relative error u after every operation, KahanSum of finite values whose magnitudes stay in range differs from the exact sum by at most u|sum| + (2u + 12nu^2) times the sum of the magnitudes (below 4u relative for amounts that are not negative); the result does not depend on the order of the values; whole numbers are added exactly. The sum of a composition and the quantity of a resource map are such sums.

* Status: proved.  Also proved where sums of other values go wrong: minus infinity, or two infinities, give NaN instead of an infinity; values in range with a sum in range give NaN if a partial sum of the sorted values leaves the range; NaN makes the sorting undefined.
* Modelled and proved: The only model with rounding: a double is a rational, an infinity or NaN, and each operation applies an arbitrary rounding function. An invariant bounds the compensation and the error of sum minus compensation through one turn of the loop; induction over the sorted values adds up the errors. Sorting is unique without NaN, hence the independence of the order. The exact sums in the models of C49 and C82 are the case of exact rounding.
* Theorems: `Verif/Props/Kahan.lean`.

  * `C108_accurate`: The sum of finite values is accurate: it needs no assumption about their order or signs, and the number of terms appears only in a term of second order.
  * `C108_relative`: Amounts, which are not negative, are added with a relative error below four units, for up to `1/(12u)` terms.
  * `C108_order`: The sum does not depend on the order of the values, whatever the rounding: the quantity of a composition or of a buffer is the same in every run that puts the same values into it.
  * `C108_whole`: Whole numbers (of products, for example) are added without any error as long as doubles hold whole numbers of that size.
  * `C108_callers`: The sum of a composition and the quantity of a resource map are such sums; an empty map has quantity 0.
  * `C108_fails_infinite`: The values of one infinity and others do not add up to that infinity: after a value of minus infinity the sum is no number.
  * `C108_fails_infinities`: Two positive infinities are not added to infinity either.
  * `C108_fails_range`: The values may be added in an order that leaves the range although their sum is in it: there is a correct rounding with which the sum of four values, which is 0, is no number.
  * `C108_fails_nan`: A value that is no number makes the sorting, and with it the sum, undefined.

### C109 Rows written to an HDF5 table are read back as recorded

Whatever the calls of Notify, Query returns every recorded row in order, and each value as recorded, for every type of fixed length and every value that does not exceed its shape. The columns of a row are next to each other, and writing one changes nothing before or behind it. Tables() lists all tables and none of the data sets for values of variable length.

* Status: partial.  Proved for values which fill their shape, and what is read otherwise is determined as far as it is. The code violates the property: behind a vector, list, set or map that is shorter than its shape the file gets uninitialised memory, which is read back as elements (the condition of the memset is never true); inside another value it is filled up with elements of zeros, which become keys of maps. An inner container longer than its shape makes memset clear nearly the whole address space. A later datum with a longer shape is written over the end of its column. Tables() hides tables whose names end in Keys or Vals.
* Modelled and proved: A type is a tree with lengths, its values a family of types over it; buffers are lists of bytes, and access outside is undefined. Writing a value is shown to be one copy of its encoding, reading the inverse in any surroundings, both by induction over the tree; the top of a column, where the code differs, is treated apart. Rows, groups and chunks follow by induction over lists. The storage of values of variable length is arbitrary here (see C31).
* Theorems: `Verif/Props/Hdf5Rows.lean`.

  * `C109_seen`: **Every row that was recorded is in the table, in order, and each of its values is the one recorded as far as its type allows.** Whatever the calls of `Notify`, the contents of fresh memory and the chunks in which the table is read: if the data have the types and shapes of the columns and no container inside a value is longer than its shape, then nothing is written outside of the buffers; texts are cut at their length, containers inside a value are filled up with elements of zeros, and a container at the top has its first elements — followed by anything at all if it is shorter than its shape.
  * `C109_roundtrip_partial`: The full statement is `∀ …, (∀ p ∈ gs, ∀ d ∈ p.1, RowOf ts NotAbove d) → query … = some (recorded rows)`, for values whose containers are *at most* as long as their shape. What is missing are containers shorter than their shape: see `C109_fails_short` and `C109_fails_padding`. **Values which fill their shape are read back as recorded**: every row, in order, with every value, for every type, any split into calls of `Notify` and into chunks, and any contents of fresh memory.
  * `C109_inside`: **A column is written within its bounds**: whatever is before and behind it in the buffer stays, for every type and every value whose inner containers are no longer than their shape, however long the value is at the top.
  * `C109_fails_short`: **A container shorter than its shape is read back with whatever was in memory**: for a vector or list of `n` elements of `sz` bytes and a value with fewer, any further elements whatsoever may be read, depending on the memory which the buffer got. The condition of the `memset` (`/repo/src/hdf5_back_gen.py:2306-2312`) is false for every column that was created with the same shape.
  * `C109_fails_inner`: **A container inside a value which is longer than its shape destroys memory**: the number of zeros behind it is negative, so `memset` clears nearly the whole address space (there is neither an exception nor a cut, unlike at the top). The same holds for sets.
  * `C109_fails_padding`: **A map inside a value gets a key of zeros**: a pair of a number and the map `{1 ↦ 7}` recorded with shape 2 is read back as `{0 ↦ 0, 1 ↦ 7}`, whatever the memory; and of `{0 ↦ 7}` the value is lost, it is read back as `{0 ↦ 0}`.
  * `C109_fails_shape`: **A later value with a longer shape is written over its column's end**: the size of the column is that of the first datum, the number of bytes written for a text that of the later datum's own shape. In the last row of a group this is outside of the buffer; elsewhere the next columns are written over it, and the text is cut.
  * `C109_fails_nul`: **A text ends at its first zero byte**: what follows is in the file but not in what is read.
  * `C109_tables`: **`Tables` gives every data set but those whose name ends in `Keys` or `Vals`**, among them all of the data sets for values of variable length.
  * `C109_fails_tables`: **A table of one's own whose name ends so is hidden**: `FuelKeys` can be recorded and queried but is no table.

### C110 Values of variable length survive in an HDF5 file that is closed and opened again

A value for which VLWrite has returned, and all values inside it, are read back by their digests, in the same session and after the file was opened again, whichever variation of its C++ type the column has; each digest is listed once among the keys of its data set.

* Status: partial.  Proved as long as no write ends with an exception, the digests are inside the value array, and in a session each type used has a table created in it or is the only one used of its C++ type. The code violates the property otherwise: after opening a file again, only the first variation that opens a data set gets its HDF5 type, and every read in another variation throws IOError, even after its table is created; the digest is appended before the value is stored, so after an exception the value counts as stored and a later write silently drops it; a digest with a component UINT_MAX is outside the value array; a value written in two variations is listed twice.
* Modelled and proved: A value is a tree of parts stored by digest; the state is the file and the caches of the backend (open data sets, HDF5 types, known keys), where indexing a missing HDF5 type inserts 0. Invariants over all histories: every cell is that of a value, every key that of a value held, known keys are keys; writes and reads go by mutual induction over the tree. A second invariant tells which types are usable in a session, a third that the keys are known to the one variation in use. The failures are general theorems or concrete histories.
* Theorems: `Verif/Props/VLFiles.lean`.

  * `C110_holds_partial`: As long as no write ends with an exception, the file holds every value that was written, in whichever variation and whether or not it was opened again since; reads that fail do no harm.
  * `C110_read_partial`: The file is opened again and the tables for the types `ts` are created. The values written before are read back, in any order and each in any variation `t` of its C++ type, if each type that is used is among `ts`, or is entered by the constructor, or is the only one used of its C++ type.
  * `C110_session_partial`: A session on a new or existing file that creates the tables for all types it uses: no write fails, the digests are returned, and afterwards all values written in this session or before are read back.
  * `C110_keys_partial`: If only one variation of each C++ type is used, each digest is listed once among the keys of its data set, also when the file is opened again in between.
  * `C110_fails_variation`: An existing file is opened and a value without parts is read in the variation `t`. From then on every read in another variation `t'` of the same C++ type that is not among the tables created so far fails, also after a table for `t'` is created.
  * `C110_fails_index`: A value without parts whose digest has a component `UINT_MAX`, the extent of the value array: writing it fails, writing it again returns its digest, and reading it fails.
  * `C110_fails_lost`: A file contains an empty container of the type `0`; it is opened again and a container with a list of numbers is written to the same table. The data set of lists of numbers does not exist and its HDF5 type is not known: the write fails, after the digest of the list was appended. In a third session the table for the list of numbers is created and the container is written once more, without an exception; it is read back with an empty list.
  * `C110_fails_handle`: In the second session of such a history the data set of a C++ type could not be created for a part; then every write of a value of this C++ type fails, also in another variation whose table is created. In a session of its own the same write succeeds.
  * `C110_fails_keys`: The same value written as `0` and as `1`, in one session or in two: its digest is listed twice.

### C111 The forms in which other codes write nuclides lead back to the nuclide

For each of the forms ZZZAAAM, ZZZAAA, CINDER, SZA, MCNP, Serpent, NIST, ALARA, FLUKA and the state ids of ENSDF: writing a nuclide or element in the form and reading the result gives it back, up to what the form cannot express (ZZZAAA, NIST and ALARA have no state, ZZZAAAM and CINDER cut it at 9, Serpent at 1); names mean the element or nuclide they name.

* Status: partial.  Exact for ZZZAAAM, ZZZAAA, CINDER, SZA (undefined where the number is no int), Serpent, NIST and ALARA. False: MCNP numbers of states run over into the next element or lose the state; in the table of FLUKA the number of LITHIUM is octal by a leading zero, TRITIUM is hydrogen 4, and 239-PU, 99-TC and 241-AM are elements; id_to_state_id dereferences the end of the map before it is loaded, finds states of the next mass number, and 23 state ids do not lead back; ensdf_to_id takes U235 for element 105; iselement throws for numbers in no form.
* Modelled and proved: Numbers as integers with overflow as `none`, the tables of FLUKA and of the states copied from the code by a script. The forms with numbers are linear arithmetic; the loop of MCNP is shown to end by a bound on the number of turns. The texts go through the normal form of C101. The names of FLUKA are compared with the names of the elements in the specification by computation over the table; the state ids by a check that goes once through the sorted table and is proved sound. The map is a global variable, so whether it is loaded is an argument.
* Theorems: `Verif/Props/NucForms.lean`.

  * `C111_numbers`: C111 (numbers). For every nuclide in any state and every element: its number in the form `ZZZAAAM` leads back to it with the state cut at 9, and so does that of CINDER, `AAAZZZM`; its number in the form `ZZZAAA` leads back to its ground state; its number in the form `SZA` leads back to it exactly, unless it is no `int`, in which case the behaviour is undefined. The texts of these numbers do the same.
  * `C111_numbers_read`: C111 (numbers, the other way). Every number in one of these forms, made of an atomic number, a mass number and a state, gives the nuclide, whether or not there is such a nuclide.
  * `C111_mcnp_partial`: C111 (MCNP). For the states up to 9 the number is that of MCNP. It leads back if the mass number is below 400 in the ground state; in the states 1 to 9, if the raised mass number has three digits, the mass number is at most three times the atomic number, and, above the first, also more than that less 100. The full statement is that it always leads back; see `C111_fails_mcnp`.
  * `C111_mcnp_ends`: C111 (MCNP, all numbers). For every `int` that is not negative, the conversion from MCNP ends, and it is undefined only where ten thousand times the number is no `int`; a number below 1000 is refused.
  * `C111_texts_read`: C111 (texts read). For every element and every mass number up to 999, in any case and with or without leading zeros: Serpent reads the symbol, perhaps a dash, the mass number and perhaps the mark of the first state; NIST reads the mass number and the symbol; ALARA reads the symbol, perhaps a colon, and the mass number; all read the symbol alone, and Serpent the symbol and `-nat`, as the element.
  * `C111_texts`: C111 (texts written). For every nuclide in any state and every element with a symbol: the name of Serpent is the symbol, a dash, the mass number or `nat`, and `m` if the state is not the ground state; that of NIST is the mass number and the symbol; that of ALARA is the symbol in small letters, a colon and the mass number. The first leads back to the nuclide with the state cut at 1, the others to its ground state.
  * `C111_texts_none`: C111 (no symbol). A nuclide of an element without a symbol has no name in any of the forms.
  * `C111_element`: C111 (elements). A nuclide in any state is no element, an element is one, and so is its symbol.
  * `C111_fluka_partial`: C111 (FLUKA). Every name of the table, apart from five, has the number of what it means; every name, apart from that of lithium, is the name of its number; the name of every number leads to the identifier that the number gives; and every element apart from lithium has a name. The full statement is without exceptions; see `C111_fails_fluka`.
  * `C111_state_partial`: C111 (state ids). Whatever identifier `id_to_state_id` gives a state id for, if that belongs to the same nuclide then it leads back, and in any case it lies within the next 10000 numbers; every state id leads to an identifier of the same nuclide, whether or not the map was loaded; and this leads back to it once the map is loaded, apart from those of a list; any other number above 0 throws, and each call loads the map. The full statement is without exceptions and for every state of the map; see `C111_fails_state`.
  * `C111_ensdf`: C111 (ENSDF). The mass number in up to three digits and the symbol, in any case, give the nuclide; three digits and two digits give the mass number and the atomic number less 100.
  * `C111_fails_mcnp`: C111 fails (MCNP). The fifth state of uranium 238 becomes a number that is refused; the first state of helium 8 becomes one that gives a negative number; and the tenth state of uranium 235 has the number of its ground state.
  * `C111_fails_element`: C111 fails (elements). `iselement` of a number in no known form does not answer no; it throws, as only one of the two exceptions of `id` is caught.
  * `C111_fails_fluka`: C111 fails (FLUKA). The number of "LITHIUM" is written with a leading zero, which makes it octal: it stands for no nuclide at all, and lithium has no name. "TRITIUM" is hydrogen 4, and hydrogen 3 has no name. "239-PU", "99-TC" and "241-AM" are the elements.
  * `C111_fails_state`: C111 fails (state ids). Before the map is loaded, every identifier in an excited state makes the behaviour undefined, although it was meant to load the map; so does one behind the last state id of a loaded map. The first state of sodium 23, of which the map has no state, leads to that of sodium 24, and that back to sodium 24. The state ids of a list of 23 do not lead back to themselves: vanadium 60 has its first excited state as second metastable state, which is not found, and niobium 86 two excited states as first metastable state.
  * `C111_fails_ensdf`: C111 fails (ENSDF). Texts that are not in the form of ENSDF are meant to be left to `id`, but those with a digit in the fourth place are not: "U235" gives the element 105.

### C112 JSON text is read as what it means, and what is written is read back

Every JSON document (RFC 8259) is read as what it means: numbers, strings with their escapes in UTF-8, arrays in order, and objects in which the last member of a name counts; no other text is read; reading ends on every text. What FastWriter and CustomWriter write is JSON, and reading it gives the value that was written.

* Status: partial.  Exact for documents whose integers fit 64 bits and whose names have no byte 0, and for values with finite doubles of at most 16 digits and strings without byte 0. False: doubles are written with 16 digits, so that neighbours become one, and from 10^15 on as text that is not JSON; signed integers above 2^31-1 come back unsigned; strings end at a byte 0, and names that agree up to it are one; -infinity is read as 0; some integers beyond 64 bits wrap around; a minus sign alone is 0, a token after a comment counts as a comma, text after the value is ignored, and a low surrogate alone is a character.
* Modelled and proved: The specification is the grammar of RFC 8259 as a relation between values and texts, with a relation for each way to write a string or a number; it shares only the type of values with the model. The reader recurses with a counter; a bound by the length of the text shows that the counter suffices, and stability in the counter makes any counter as good as another. Reading is shown by mutual induction over the value, with arbitrary white space and any rest that does not continue a number. Each writer is shown to give a text of the relation (with a point and no digits allowed), so that reading back follows. `%#.16g` is modelled by the decimal logarithm and rounding half to even; the specification of the rounding is a distance.
* Theorems: `Verif/Props/JsonText.lean`.

  * `C112_terminates`: C112 (end). The reader comes to an end on every text, and what it leaves is shorter than the text.
  * `C112_reads_partial`: C112 (reading). Every JSON document whose integers fit 64 bits and whose names have no byte 0 is read as what it means, and white space is left. The full statement is without these conditions, and no other text is read; see `C112_fails_big`, `C112_fails_name`, `C112_fails_lax`, `C112_fails_tail`.
  * `C112_big_partial`: C112 (large integers). An integer that does not fit 64 bits is read as the double next to it, if it has a digit more than the greatest or least one, or a larger last digit. The full statement is without this condition; see `C112_fails_big`.
  * `C112_last`: C112 (members). In what an object means, the value under a name is that of the last member of this name, and there is none if there is no such member.
  * `C112_ordered`: C112 (order). Whatever text is read, in all objects of the value the members are in the order of their names, which occur once and have no byte 0.
  * `C112_fast_partial`: C112 (`FastWriter`). A value whose strings have no byte 0 and whose doubles are finite is read back from what `FastWriter` writes, with the doubles rounded to 16 digits and the type of an integer chosen by its size. The full statement is without these conditions and with the same value; see `C112_fails_real`, `C112_fails_type`, `C112_fails_nul`, `C112_fails_inf`.
  * `C112_custom_partial`: C112 (`CustomWriter`). The same of `CustomWriter`, whatever its width, if its brackets, its colon and its comma are those of JSON with white space around them and the indentation is white space.
  * `C112_same_partial`: C112 (the same value). If moreover the doubles have at most 16 digits, integers up to 2³¹-1 are signed and those above unsigned, then the value that is read is the one that was written.
  * `C112_fails_real`: C112 fails (precision). Two neighbouring doubles, 5404319552844595/2⁵⁴ (which is 0.3) and the one above it, are written the same way, so that at most one of them can be read back: 16 digits do not suffice.
  * `C112_fails_type`: C112 fails (types). A signed 3000000000 is read as unsigned, and an unsigned 5 as signed.
  * `C112_fails_nul`: C112 fails (byte 0). Of a string only what is before its first byte 0 is written.
  * `C112_fails_inf`: C112 fails (infinity). A document that is -∞ is read as 0, and one that is +∞ or NaN is not read.
  * `C112_fails_point`: C112 fails (what is written is JSON). The double 10¹⁵ is written with a point and no digit after it, which is no JSON text, whatever its value.
  * `C112_fails_lax`: C112 fails (no other text is read). A minus sign alone is read as 0 although it is no JSON document. So are texts with a comma before the end of an object after an empty name, with any token instead of a comma after a comment, and numbers with more than one point or sign, of which the first part counts.
  * `C112_fails_tail`: C112 fails (the end). After any JSON text, what follows a space is ignored.
  * `C112_fails_big`: C112 fails (large integers). Integers of 64 bits and more are reduced modulo 2⁶⁴ unless the last digit is the one that leads out of range; a negative one becomes positive.
  * `C112_fails_name`: C112 fails (names). Two names that agree up to a byte 0 are one.
  * `C112_fails_lone`: C112 fails (surrogates). A low surrogate alone is taken as a character.

### C113 Input that the generated schema admits is read by the generated code, as written

For the state variables of a class the preprocessor generates a RELAX NG schema and the function InfileToDb. The schema admits exactly the elements that have the form of the types, with the names the developer gives and leaves of the given data types; each variable has one element, and one with a default may have none. Every input that the schema admits is read without an error, and the values recorded are those that the input says, or the defaults.

* Status: partial.  Exact for the schema; for reading when the leaves are texts that can be converted, the names of the variables are not those of local variables, and the types have no maps directly in vectors, sets or lists, and no pairs directly in pairs except in elements of containers. False: the truth value true is admitted and not read; empty leaves, comments and CDATA sections in leaves are admitted and not read; a vector of maps throws, a pair of pairs a default for a vector of vectors, and a variable x_tmp beside an internal x do not compile; a double with the name n is recorded as an integer; a default with a backslash is changed; a class with internal variables only has no valid schema.
* Modelled and proved: The generated C++ is a syntax tree, with a semantics of scopes in which a declaration shadows and a name means the innermost variable; what does not compile is an outcome of its own. `direct` is the reader as a function of the tree; `reader_spec` shows by induction over the type that the statements compute it, whatever is in scope, and `val_spec` does the same for defaults. The specification has RELAX NG as a relation between patterns and lists of nodes, the form of an element for a type, and a relation `Says` between elements and values that knows nothing of queries. The schema is compared with the form by induction over the type, for a class by splitting the children by name. The types whose code fails (vectors of maps, pairs of pairs) are accepted by the preprocessor; whether the database stores them is not part of the claim. The texts for truth values, the text of a C++ literal, Python truth, and the classes for which code is made are characterised by equivalences.
* Theorems: `Verif/Props/InfileGen.lean`.

  * `C113_alias`: The alias of a variable becomes one name for each element of its type: those the developer gives, and the others by default.
  * `C113_part`: Each part of an annotation for schema types or kinds of input is what the developer gives for it: the element of the list, or a text for the container itself; otherwise nothing.
  * `C113_schema_total`: There is a pattern exactly if every primitive part has a data type.
  * `C113_schema`: The pattern of a variable matches the elements that have the form for its type, with leaves of the data types.
  * `C113_schema_class`: The schema of a class matches the children with one element for each variable; those with a default may be missing, and internal variables have none.
  * `C113_proper_partial`: The schema is one of RELAX NG unless all variables are internal.
  * `C113_reads_partial`: Whatever the elements for the variables, or their defaults, say is recorded.
  * `C113_class_partial`: Input that the schema admits is read, and recorded as written: each variable gets what its element says, or its default if it has no element. Full statement: without `hplain` (leaves may be empty or have comments), without `hconv` (data types may admit texts that the code cannot convert) and without the conditions of `Sound` on types and names.
  * `C113_unique`: What the input says about a variable is one value.
  * `C113_basic`: What the schema admits for texts and integers, when the developer gives no other data types, can be converted.
  * `C113_bool`: Just the texts for truth values are read as truth values.
  * `C113_literal`: A text default becomes the text that C++ reads between the quotes.
  * `C113_default`: The defaults that stand for `false`, and the lists that defaults of containers stand for.
  * `C113_generates`: No code is made for a class just when an internal variable has no default; otherwise there is code.
  * `C113_declare`: A name can be declared just when it is new in the innermost scope, whatever the scopes around it have.
  * `C113_fails_bool`: `true` is a truth value for the schema; the code takes only `0` and `1`.
  * `C113_fails_empty`: An empty text, a text with a comment and a CDATA section are admitted for a text, and not read.
  * `C113_fails_vecmap`: A vector of maps is described by the schema; the code asks for elements with the name `['val', 'item']`.
  * `C113_fails_pairpair`: A pair in a pair is described by the schema; the code declares `first0` twice and does not compile.
  * `C113_fails_local`: A variable of type `double` with the name `n` is not the one the code assigns to: the value 5/2 is recorded as the integer 2.
  * `C113_fails_default`: The text of a default is put between quotes as it is: `C:\new` has a line break afterwards.
  * `C113_fails_nested`: A default for a vector of vectors does not compile: the variable `elem` gets elements of itself.
  * `C113_fails_temp`: With an internal variable `x`, a variable `x_tmp` of another type does not compile.
  * `C113_fails_internal`: The schema of a class with internal variables only is no RELAX NG: an `interleave` without content.

### C114 The second pass of the preprocessor finds the classes, parents and state variables of a file

The second pass goes through the statements of a file and keeps stacks of namespaces and classes, and sets of namespaces used and aliases. The stacks follow the blocks of the file, so that each class head and each state variable is taken in the scope of C++, and are empty at the end. The table has exactly the classes of the file by their full names; a base is found by the lookup of C++; the parents, ancestors and kind of a class are those of the table; the state variables of a class are recorded once each, in their order, with their pragmas, and aliases lead to them.

* Status: partial.  Exact for the stacks, classes and ancestors; for state variables if names occur once and no alias is the name of a variable; for bases if no namespace is used, no alias is in force and no nearer class hides one of the very name; for heads without template bases. False: a class outside of all namespaces is preferred to a nearer one; a base with leading colons is lost or taken for a nearer class, so that a class can become its own parent and its first state variable ends in endless recursion, as does an alias that begins its own name; a class in a namespace without a name ends in an error; a variable whose name is an alias is lost; bases after final or after a template base are lost. Not shown: what names mean with aliases; canonize_type, the split into statements and the regular expressions other than those for class and namespace heads are not modelled.
* Modelled and proved: A file is a tree of items; `flat` is its sequence of statements, with the separators that the preprocessor sees. `events` goes through the tree with an environment in the manner of a compiler and lists class heads and state variables. `run_flat` shows by induction over the tree that the accumulator with its stacks and depths computes what the events give, whatever is on the stacks below: the depths on the stacks are smaller than the current one, and what a block adds has its depth and is filtered out at its end. The other theorems are invariants of the fold over events: the entries of a class are those of the declarations so far, and parents are classes of the table. Ancestors are the transitive closure of the relation of parents; a circle leaves none at any bound on calls. The lookup of a base is compared with a relation `Means` that has no order of tries.
* Theorems: `Verif/Props/CycppScan.lean`.

  * `C114_scopes`: The stacks of the accumulator follow the blocks of the file: for each file, the result is what its class heads and state variables give one after the other, each in the scope and with the namespaces and aliases that are in force at its place, and at the end the stacks are empty.
  * `C114_classes`: The classes in the table are those of the file, by their full names, and each recorded parent is one of them.
  * `C114_vars_partial`: If no name occurs twice in a class and no alias is the name of a variable, the table of the class has its state variables in the order of the file, each with its pragma and its type, and with increasing numbers.
  * `C114_alias_partial`: If, besides, no alias occurs twice, each alias leads to its variable.
  * `C114_ancestors`: When the entry of a class is made, it has the parents of the class, all its ancestors, and the kind of the first of region, institution, facility and agent among them.
  * `C114_returns`: If the classes can be numbered so that parents have smaller numbers, the ancestors are found.
  * `C114_known`: The class that a name is taken for is one of the table.
  * `C114_origin_partial`: Without aliases, the class that a name is taken for has this name at its end.
  * `C114_meaning_partial`: Where no namespaces are used and no aliases are in force, a name of a base class is taken for the class that it means in C++, if no nearer class hides a class of this very name.
  * `C114_head_partial`: The name and the bases of a class, also of a template, are read from its head if no base is a template and nothing but white space stands between the name and the colon.
  * `C114_fails_global`: A class outside of all namespaces is preferred to a nearer one, which is what the name means.
  * `C114_fails_leading`: A base with leading colons is lost, or taken for a nearer class.
  * `C114_fails_circle`: A class in a circle of parents has no entry: the search for its ancestors does not end.
  * `C114_fails_self`: The class that has the name of its base in another namespace becomes its own parent, and its first state variable ends the preprocessor with an error.
  * `C114_fails_anonymous`: Statements are stripped of white space before the filters see them, so that a namespace without a name has `None` for a name, and any class in it ends the preprocessor with an error.
  * `C114_fails_alias`: `namespace c = cyclus; class A : public core {};`: the alias begins its own name, and the search for a class that is not known and whose name begins with the alias does not end.
  * `C114_fails_clash`: A state variable is lost if an alias is its name: its own alias, or that of another.
  * `C114_fails_heads`: Bases after `final` and bases after a template are lost, and of `namespace a::b` only `a` is seen.
  * `C114_close`: A block is left only at its own depth: if the count of braces jumps over it, it is never left.
  * `C114_unknown`: A class of which there is no head is a `KeyError`.

### C115 The preprocessor turns the type of a state variable into its canonical type

Given the namespaces used and the aliases in force, the preprocessor turns the text of a type into a canonical type. The result is made of supported types and of templates that are known or that an alias names. The text of a canonical type, with white space in any place within a template or around a name, gives this type in any environment. A name stands for what its innermost alias names, and without aliases for what it is in the one namespace used that has it; if there is none it is rejected. The result does not depend on a bound on nested calls, and there is a result for all names if there are no aliases.

* Status: partial.  Exact for canonical types and for aliases; for namespaces used if names and namespaces are single identifiers and there are no aliases; the function returns if there are no aliases. False: a qualified name is not looked for in a namespace that has fewer parts, so that toolkit::ResBuf is rejected after using namespace cyclus; a type of the namespace around the class is rejected; a nearer class is taken for the type of the same name in a namespace used; using ::foo makes foo an alias of itself and the calls never end; the number of template arguments is not looked at; an alias of a template is accepted whatever it names; an alias of a namespace has no effect; white space around colons is rejected outside of templates. Not shown: lookup through nested namespaces.
* Modelled and proved: `canonize` follows the calls of canonize_type on the types of C40, with a bound on nested calls; `Res` tells a TypeError, which the loop over namespaces catches, from a bound that is too small. `Canonical`, `text` and `solid` (a text without its white space) are the specification. Soundness is an induction over the bound. The text of a template is put back to the type by the lemma about parse_template of C40, since normalisation keeps all that is not white space. The innermost alias is picked because the head of the sorted list is at least as deep as each entry. That calls end without aliases follows from the number of parts of the name, which grows with each call and is bounded by those of the namespaces. The failures on files are computed with the pass of C114, with `canonType` as its function for types.
* Theorems: `Verif/Props/CycppType.lean`.

  * `C115_sound`: What comes out is made of supported types, and of templates that are known or that an alias names.
  * `C115_bound`: A result does not depend on how many nested calls are allowed.
  * `C115_fixed`: A canonical type stays as it is, whatever is used and whatever has aliases.
  * `C115_text`: The text of a template, with white space anywhere, is read as the type.
  * `C115_canonical`: So the text of a canonical type, in white space, gives that type in any place.
  * `C115_alias`: A name that is not supported and has an alias stands for what the innermost alias names.
  * `C115_alias_template`: A template that is not known and has an alias gets the name of the innermost alias, and keeps its arguments.
  * `C115_using_partial`: Without aliases, and with namespaces of one identifier, a name of one identifier that is not supported has the meaning that it has in one of the namespaces, or is rejected if it has none. The full claim would be for namespaces and names of many identifiers, where the code looks in namespaces nested in namespaces that are used: see `C115_fails_qualified`.
  * `C115_using_template_partial`: The same for templates.
  * `C115_returns_partial`: Without aliases the function returns, with any namespaces used, nested as they may be. The full claim would allow aliases: see `C115_fails_returns`.
  * `C115_fails_qualified`: With `using namespace cyclus;` the type `toolkit::ResBuf<T>` is `cyclus::toolkit::ResBuf<T>` in C++, but it is rejected: a name is looked for only in namespaces with at least as many parts.
  * `C115_fails_enclosing`: A type of the namespace around the class is rejected unless it is qualified.
  * `C115_fails_nearer`: A class `my::Product`, which is what the name means, is taken for `cyclus::Product`.
  * `C115_fails_returns`: After `using ::foo;` the type `foo` is the alias of itself, and the calls never end.
  * `C115_fails_arity`: The number of arguments is not looked at: `std::map<int>` and `std::vector<int,int>` are accepted.
  * `C115_fails_template_alias`: After `using foo::vector;` the type `vector<int>` is accepted as `foo::vector<int>`, which is no known template.
  * `C115_fails_namespace_alias`: After `namespace s = std;` the type `s::string` is rejected.
  * `C115_fails_colons`: White space around colons is removed inside of templates and kept outside of them: `std :: string` is rejected and `std::vector<std :: string>` is not.

### C116 The preprocessor cuts the text of a file into its statements and recognises them

The preprocessor cuts any text into matches that follow one another, and nothing of a text that ends with a brace or a semicolon is lost. If a text is made of statements, directives, comments and access specifiers with any white space, it is cut exactly where they end. Class heads, namespaces, using directives and declarations, aliases, typedefs, pragmas of state variables and declarations are recognised with their names, and what is none of these is not taken for one. Hence the second pass makes of the text of a file what it makes of the tree of its declarations.

* Status: partial.  Any text is covered by the matches. Exact for files of the pieces and the forms of statements that the specification lists: no brace or semicolon in a literal or within a line of code that is not its end, declarations of state variables without initial value and with their type on one line. False outside: a brace in a literal shifts all scopes after it; an access specifier directly after a brace swallows the pragma after it; text after the last separator is dropped; the name of a variable with initial value is the value; a type over two lines is cut; misspelled pragmas are passed over; types whose name begins with the letters of private, public, protected or namespace are passed over; another pragma between the pragma of a variable and its declaration is taken for the declaration; alias declarations make no alias. Characters are those of ASCII; exec and note pragmas are outside of the model.
* Modelled and proved: `split` follows the alternatives of RE_STATEMENT with their order and backtracking; `recognise` tries the regular expressions of the filters in their order. The specification has pieces of a file with their text (`render`) and the match that each should give (`token`), relations `Says` between a statement and its meaning and `Reads` between the pieces of a file and the statements of a tree. `tokens_pieces` is an induction over the pieces: at the begin of each the match is its own, since the text of a piece has no separator and no access specifier before its end. The meaning of each form is computed by lemmas on the fronts of texts; `reads_run` shows that the run over the recognised statements ends as the run over those of the tree, though other statements may be recognised as declarations, as these change nothing without a pragma. C114 then applies. That any text is covered is shown by induction with the rest of the text. The failures are computed from texts.
* Theorems: `Verif/Props/CycppText.lean`.

  * `C116_cover`: Any text at all is cut into matches that follow one another: text is passed over only where none of `{`, `}` and `;` follows.
  * `C116_nothing_lost`: Nothing of a text that ends with `{`, `}` or `;` is lost.
  * `C116_split_partial`: A file of pieces is cut at the ends of the pieces: statements at `{`, `}` and `;`, lines that begin with `#` or `//` at the end of the line, comments at their end, and access specifiers at the colon.
  * `C116_says_partial`: A statement is recognised for what it says.
  * `C116_quiet`: A text without a meaning for the pass is not taken for anything but a declaration, which means something only after the pragma of a state variable.
  * `C116_file_partial`: If the pieces of a file say what is in a tree, the pass makes of the text what it makes of the tree: all that C114 says of trees holds for the text.
  * `C116_classes_partial`: The classes that the pass finds in a text are those of the tree.
  * `C116_fails_brace`: A brace in a character or a string is taken for a brace: a class that follows `F` is taken for a member of it.
  * `C116_fails_access`: An access specifier directly after the brace is not cut off at its colon: the pragma after it is lost, without a message, and with it the state variable.
  * `C116_fails_tail`: What follows the last separator is no statement.
  * `C116_fails_initial`: The name of a variable with an initial value is taken to be the value.
  * `C116_fails_lines`: The name of a variable whose type goes over two lines is taken from the type.
  * `C116_fails_misspelled`: A misspelled pragma, and one without white space before its dictionary, are passed over without a message.
  * `C116_fails_prefix`: A declaration whose type begins with the letters of `private` is passed over, and the pragma goes to the next declaration.
  * `C116_fails_pragma`: Another pragma between the pragma of a state variable and its declaration is taken for the declaration.
  * `C116_fails_using`: An alias declaration makes no alias; the typedef for the same makes one.

### C117 The third pass puts the methods in the place of their directives and keeps the rest of the file

In the new file each statement of the old one is kept, except that a directive of the preprocessor is replaced by its method, with the head that its place and mode ask for and the body for the class that is around it or that is named, and that a state variable with a shape is followed by the vector of that shape. Outside of its class the name of the method is qualified such that with scopes around it, it is the name of the class. A file without pragmas is unchanged.

* Status: partial.  Exact for texts whose braces are balanced, also within pragmas, up to the white space before a comment at the begin of a statement and the text after the last separator. False outside: the pragma without a method is left as it is, without a message, if it directly follows a comment line or another directive; a blank after a directive or a second blank before the name of a class makes the class unknown; a brace in the dictionary of a state variable moves all that follows one level down; text after the last separator is lost; misspelled directives are kept in most places. The bodies of the methods are arbitrary here. Characters are those of ASCII.
* Modelled and proved: `see` tries the regular expressions of the filters of the third pass in their order; `generate` follows the machine with its stacks of classes and namespaces and its depth; `generateCode` runs it over the matches of C116. The specification is the relation `Writes` between the statements of a place and the text to be written there, with blocks that nest, and `method`, the text of one method. `writes_run` is an induction over the relation with the invariant `At`: the stacks are those of the place and all entries are above the depth. `relative` is shown to be the name without the longest run of scopes that are around. For texts without the word pragma no filter that changes the text can match, so no balance is needed. The failures are computed on small files.
* Theorems: `Verif/Props/CycppGen.lean`.

  * `C117_file`: If the blocks of a file are balanced, the new file has for each statement what is to be written at its place: the methods for a directive, a shape after the declaration of a state variable that has one, and else the statement itself.
  * `C117_pieces`: The same for a file of pieces.
  * `C117_unchanged_cut`: A text in which the word `pragma` does not occur is kept as it is cut, whatever its blocks are.
  * `C117_unchanged`: If moreover it has no comment between slashes with stars and ends with a brace or a semicolon, it is unchanged.
  * `C117_words`: The words for the methods.
  * `C117_directive`: A directive for a method is seen, with its mode and the class that is named after one character of white space.
  * `C117_default_partial`: The pragma without a method is seen if it is on a line of its own and the line break before it belongs to its statement.
  * `C117_var`: The pragma of a state variable is seen, with any white space and whatever follows: the next declaration is the annotated one.
  * `C117_owner`: Outside of its class a method has the name of the class without scopes that are around it: with these before it the name is that of the class.
  * `C117_order`: The filter for `snapshot` takes a directive for `snapshotinv` too; it is right only because it comes later.
  * `C117_fails_default`: The pragma without a method, directly after a line that is a comment, is left as it is; with an empty line between there are nine methods in its place.
  * `C117_fails_blank`: A blank at the end of a directive, or two before the name of the class, give the class with the empty name, which is not known.
  * `C117_fails_brace`: A brace within the dictionary of a state variable is counted: a class that follows is taken for a member, and its directives fail.
  * `C117_fails_tail`: What follows the last separator is lost.
  * `C117_fails_misspelled`: A misspelled method is an error if there is a line break before it in the statement, and left as it is otherwise.

### C118 Line directives make a compiler report lines of the original file

The file that the preprocessor writes has the lines of the new file in their order, with one line directive before each block of lines that it shares with the original file. A compiler that reads it reports each shared line with its number in the original file, and lines of code that was made with the numbers that follow the shared line before them, so that the first has the number of the directive in whose place it is. Lines are those of the text, and continued lines are joined as the language says.

* Status: partial.  Exact for blocks that do not begin within a comment and lines without the other characters at which Python breaks lines. False outside: the third pass drops the white space before a comment (C117), so its first line is joined to the line before and the next block begins within the comment, where a directive has no effect; a form feed counts as the end of a line and is replaced by a line feed; the line feed at the end of the file is lost; the name of the file is not escaped. The matching blocks of difflib are arbitrary.
* Modelled and proved: `insertAll` follows the loop from the last block to the first; `weave` is the result in one go, and the two agree since an insertion leaves all that is before it. The specification is a compiler (`Reader`) with any state for comments and any form of line directives; `report` gives each line its number and file. `report_weave` is an induction over the blocks: the state before a block is that of the new lines alone, because the directives do not change it, and from a directive on lines are numbered one by one. A simple compiler with comments shows that the hypotheses can be met.
* Theorems: `Verif/Props/CycppLine.lean`.

  * `C118_kept`: Nothing is lost: the lines of the new file are among those that are written, in their order, and there is one line more for each block; before the first block the lines are those of the new file.
  * `C118_numbers`: From each block that does not begin within a comment, up to the next one, the lines of the new file are reported as lines of the original file from the begin of the block on, if there are no directives among them. So code that is made has the number of the line in whose place it is.
  * `C118_matched`: Hence each line that is kept is reported with its number in the original file.
  * `C118_lines`: If no line has one of the other characters at which Python breaks lines, the lines are those of the text.
  * `C118_continued`: Continued lines are joined as the language says.
  * `C118_unchanged`: A file without pragmas, comments between slashes with stars and continued lines, that ends with a brace or a semicolon, is written with one directive more, for its first line; if it begins with a directive, it has an empty line before that.
  * `C118_fails_comment`: The white space before a comment is lost, so that its first line is joined to the line before and the first line that is equal is within the comment: there the directive has no effect, and the last line, the sixth of the file, is reported as the fourth line of the new file, for any compiler that passes over directives within comments.
  * `C118_fails_form_feed`: A form feed counts as the end of a line, so that the lines after it have numbers that are too large; and it is replaced by a line feed.
  * `C118_fails_end`: The line feed at the end of a file is lost.
  * `C118_fails_name`: The name of the file is not escaped.

### C119 Agents written in Python read from the input file what the generated C++ reads

For the state variables of an agent class written in Python, InfileToDb records for each variable, in order, the value that its element in the input file says, or its default if it has no element. A class that is handled in both languages records the same row in both: the reader of Python gives the value that the generated C++ stores, and meets the errors that the C++ throws.

* Status: partial.  Exact for the types that the readers of Python can handle: primitive types but blobs and UUIDs, containers and maps of these, and pairs of all these. False outside: a container whose elements are containers, pairs or maps raises an exception as soon as it has an element, since the names of the inner elements are lost; a map with such keys or values looks for them outside the item; blobs and UUIDs raise a TypeError; a nuclide named as a default is not converted, so that no row is recorded where the generated C++ records the nuclide; a default text is cut at a null character. Schemas, and the state variables themselves (how they are found on a class), are not part of the claim.
* Modelled and proved: The readers of `agents.pyx` are one function by recursion over the type, with annotations as trees of strings, lists and `None`, and with the exceptions of Python as outcomes; C++ is called through the tree of C113. `read_direct` shows by induction over the type that for the types Python can handle the reader computes `direct`, the function that the generated C++ of C113 computes; what elements say is the relation `Says` of C113. Defaults are compared with a relation `Denotes` between values of Python and of C++. The failures are general theorems: the name of the inner element is a string where a list is expected, so that its first letter is looked up, or the index is out of range.
* Theorems: `Verif/Props/PyInfile.lean`.

  * `C119_parts`: The user interface types of the parts are those that C++ uses: preparing an annotation changes no part.
  * `C119_reads`: What an element says is read.
  * `C119_same`: On any tree, the C++ that the preprocessor generates for the same variable stores the value that Python reads, and throws what Python meets.
  * `C119_default`: A default that denotes a value is recorded as that value.
  * `C119_numbers`: A default for an integer is recorded exactly if it is an integer of 32 bits or a truth value; a default for a number is recorded exactly if it is a number or a truth value.
  * `C119_class_partial`: Each variable gets what its element says, or its default if it has no element, and is recorded. Full statement: without the conditions of `PySound` on the types (containers in containers, keys and values of maps that are containers, blobs and UUIDs), and with defaults that name nuclides.
  * `C119_row_same`: A class that both languages can handle records the same row in both: the generated C++ and the method of Python agree.
  * `C119_row`: Every row has the names of the variables in their order, with their types.
  * `C119_required`: An internal variable without a default, and an element that is missing for a variable without a default, are errors: no row is recorded.
  * `C119_names`: Names that are not given: the elements of a container are `val`, the parts of a pair `first` and `second`, and a map has items `item` with `key` and `val`.
  * `C119_hash`: Only values without containers and maps have a hash.
  * `C119_set_path`: The elements of a set are looked up from the set, wherever it is.
  * `C119_fails_nested`: A container of containers, pairs or maps that has an element is not read: the names of the inner elements are lost on the way.
  * `C119_fails_map`: A map whose keys or values are containers, pairs or maps is not read when it has an item: the elements are looked up outside the item.
  * `C119_fails_blob`: Blobs and UUIDs are not read, whatever the file has.
  * `C119_fails_nuclide`: A default that names a nuclide is not converted, as it is in the generated C++: nothing is recorded.
  * `C119_fails_null`: A text with a null character is cut there.

### C120 Agents written in Python keep their state variables through copies and restarts

An agent written in Python has exactly the state variables that its class declares or inherits, each starting with its value, its default or the zero of its type, whatever agents were made before. An attribute that is set reads as what was set. A clone has the values of the original. An agent started again from its snapshot has the values of the snapshot, and its own snapshot is the same.

* Status: partial.  Exact for a class whose first agent is made before any of an ancestor, from then on and for all later histories, if no variable is declared under two names. False otherwise: the attribute that holds the gathered variables is inherited, so that after an agent of an ancestor the agents of a subclass get the variables of an ancestor only, and reading a variable of the subclass raises a KeyError. The order of variables can differ from that of the declarations when classes share some. A pair without a default starts as (None, None), which cannot be recorded. The annotations of a class with state variables raise a ValueError. A restart from an empty table reads beyond its end. Blobs and UUIDs are not modelled as values of Python, nor is sharing of values between a class and its agents.
* Modelled and proved: `Model/PyAgent.lean` is the state of the classes (the index and name of each variable, the attribute `_statevars` of each class) and the methods of `_Agent` on it: gathering, making agents, attributes through descriptors, copying, snapshot and restart. Classes have any attributes and any order of lookup with the properties of Python's. Proved with an invariant over all sequences of making agents; that values survive is an induction on types. The failures for subclasses are general theorems, with a witness.
* Theorems: `Verif/Props/PyAgent.lean`.

  * `C120_class`: An agent made before any of an ancestor of its class has exactly the state variables that its class declares or inherits, each under one name.
  * `C120_same`: All later agents of the class start as the first one does.
  * `C120_order`: The variables come in the order in which they were declared, unless other classes with some of them came before.
  * `C120_starts`: A variable starts with the value that is given, or else the default, or else the value of its type.
  * `C120_zero`: The value of a type is zero or empty.
  * `C120_set`: An attribute that was set reads as what was set, and the other ones as before.
  * `C120_clone`: A clone has the variables of the original with the same values.
  * `C120_copied`: Copying takes `None` only for attributes that the other agent does not have; any other error of reading it ends the copy.
  * `C120_snapshot`: What a snapshot records: for each variable of the class one column, of its type, with what the value of the variable converts to.
  * `C120_restart`: An agent that is started again from its snapshot, in whatever program run, has the variables of its class with the values of the snapshot, and its own snapshot is the same.
  * `C120_fails_subclass`: A class of which no agent was made, but of one of whose ancestors: its agents get the variables of an ancestor only.
  * `C120_fails_own`: Reading a variable that such a class declares itself is then an error.
  * `C120_fails_own_witness`: In the program of the examples, an agent of class 1 has a variable of its own before any agent of class 0 is made, and not afterwards.
  * `C120_fails_order`: Otherwise they may not: gathering renumbers variables that other classes share.
  * `C120_fails_pair`: For a pair it is a pair of nothing, which cannot be recorded.
  * `C120_fails_annotations`: The annotations of a class with state variables cannot be had.
  * `C120_fails_rows`: A table without rows is read beyond its end.

### C121 Inventories of agents written in Python survive snapshots, copies and restarts

A snapshot of an agent written in Python records the resources in each of its inventories and leaves the inventories as they are; an agent started again from it gets them back. A new agent gets the capacities that the annotations of its inventories say. The inventories of a clone have the capacities of the original and are empty. Resources that a sink accepts are in its inventory.

* Status: partial.  Holds for capacities and for clones, and for snapshots of empty inventories. False for contents: the conversion to C++ never stores anything, so that no resource is recorded; a buffer that holds something is emptied, and pushing the resources back raises a TypeError, since they come back as plain resources; a map gets a second entry for its last resource under the default key; buffers that are started again take no resources, and maps only the last one. The inventory of a sink is a wrapper without a buffer, so that sinks accept nothing. A map whose capacity was not set makes a clone raise an AttributeError. What C++ does after an exception of Python is not modelled.
* Modelled and proved: `Model/PyInv.lean` puts the methods of `_Agent` for inventories on top of the models of `ResBuf` and `ResMap`, with the class of the Python wrapper of each resource, on which pushing depends. The failures are general theorems: for all lists of inventories the map given to C++ is empty, and the first buffer that holds something is emptied. Capacities and clones are inductions on the list of inventories.
* Theorems: `Verif/Props/PyInv.lean`.

  * `C121_empty`: A snapshot while nothing is in the inventories leaves them so.
  * `C121_init_none`: Inventories for which nothing is given stay as they are.
  * `C121_push`: A resource of the class of the buffer is pushed as C++ pushes it.
  * `C121_capacity`: A new inventory gets the capacity that its annotation says: that of the state variable, the number, or else 1e300.
  * `C121_says`: What annotations of capacities say.
  * `C121_negative`: A negative capacity is refused.
  * `C121_clone`: The inventories of a clone have the names, classes and capacities of those of the original, and are empty.
  * `C121_fails_snapshot`: What a snapshot gives to C++ is always empty: no resource of an agent is recorded.
  * `C121_fails_recorded`: So the contents of an inventory that is not empty are not recorded.
  * `C121_fails_lost`: The first buffer that is not empty is emptied by a snapshot, which then raises a `TypeError`: the resources are lost.
  * `C121_fails_map`: With a map, a snapshot adds an entry with the default key, which holds the last resource once more.
  * `C121_fails_restart`: So an agent that is started again from its snapshot has what new inventories have: nothing.
  * `C121_fails_init`: A buffer for which resources are given gets none of them, and a `TypeError` is raised.
  * `C121_fails_init_map`: A new map for which resources are given has one of them, the last one, under the default key.
  * `C121_init_maps`: Every map for which resources are given gets its own, wherever it stands among the inventories.
  * `C121_sink_buffer`: With a buffer they would accept all that they are given, as `push_many` does.
  * `C121_fails_sink`: Sinks accept nothing: a material raises a `TypeError`, a product is pushed to a null pointer.
  * `C121_fails_clone`: A map whose capacity was not set makes a copy fail.

### C122 Portfolios of agents written in Python become the C++ portfolios they describe

A request portfolio that an agent written in Python returns, in each of the forms that normalize_request_portfolio tests for, becomes a C++ portfolio with exactly the requests it describes: the same order, names, targets, preferences, exclusivity, as alternatives of each other, with the same capacities. A bid portfolio becomes a C++ portfolio with exactly the bids it describes, and a bid that does not say a preference is worth what the requester said, as in C++.

* Status: partial.  Holds for commodities with one name whose value is a resource, and for all forms of bids. False otherwise: a dict or a list as the value of a name raises TypeError, since it is assigned to an element of a list under a string; with several names in a commodity the preference is looked up at the wrong place or past the end; without the key commodities a preference is dropped and a constraint taken for a commodity; a portfolio without commodities has the quantity 0/0; a bid without a preference is worth 1 and not what the requester said. Resources of the wrong class, and missing requests or offers, are cast unchecked. Generators are not modelled.
* Modelled and proved: `Model/PyTrade.lean` has Python values (numbers, strings, resources, requests, dicts, lists) and the two normalising functions, the conversion to the portfolios of C19–C21 and the loops around them. What a portfolio describes is stated by membership of entries in dicts (`Spec/PyTrade.lean`). Inductions over the list of commodities or bids, with the position in the list for the lookup of preferences. That nothing but a resource is accepted is a theorem about all portfolios; the failures are witnesses or general equations.
* Theorems: `Verif/Props/PyTrade.lean`.

  * `C122_requests`: A request portfolio with a list of commodities, one name each, becomes the C++ portfolio with these requests in this order, each with the preference and the exclusivity written beside it.
  * `C122_plain`: A dict of resources asks for each of them with preference 1.
  * `C122_pairs`: A list of pairs is the same as a dict.
  * `C122_pairs_repeated`: In a list of pairs a key may occur several times: the last one counts.
  * `C122_pairs_error`: A pair whose first part is not a name, or something that is not a pair, raises an error.
  * `C122_many`: An agent may return one portfolio as a dict, or a list of portfolios: each becomes a portfolio of its own.
  * `C122_only_resources`: In a portfolio that is accepted, whatever a commodity names is a resource: neither a dict with a target nor a list of resources is accepted.
  * `C122_only_resources_plain`: The same for a dict without the key `commodities`.
  * `C122_bids`: A bid portfolio becomes the C++ portfolio with these bids.
  * `C122_many_bids`: An agent may return one bid portfolio as a dict, or a list of portfolios.
  * `C122_preference_partial`: What remains: a bid with NaN as preference is worth what the requester said, and a bid with a preference is worth that.
  * `C122_fails_forms`: Only a resource is: the dict and the lists raise `TypeError`, since the result is assigned to `commods[key]`, where `commods` is a list (`lib.pyx:1840,1853`).
  * `C122_fails_forms_error`: The error is `TypeError` for each of the three.
  * `C122_fails_names_index`: A commodity with two names: the position in the list of all names is used in the list of commodities (`lib.pyx:1831-1835`), so that the second name is looked up past the end.
  * `C122_fails_names_preference`: … or gets the preference of another commodity: here `mox`, which has preference 5 like `uox` beside it, is requested with the preference 2 of `thox`, and `thox` with that of the commodity after it.
  * `C122_fails_plain_preference`: Without the key `commodities` a preference is dropped (`lib.pyx:1812-1815,1831`).
  * `C122_fails_plain_constraints`: Without the key `commodities` a constraint is taken for a commodity (`lib.pyx:1812-1816`).
  * `C122_fails_dict`: A dict of commodities in place of a list of dicts is refused (`lib.pyx:1803-1804`).
  * `C122_fails_empty`: A portfolio without commodities is given to `AddMutualReqs` all the same: its quantity is 0/0 (`gentypesystem.py:2189`, `request_portfolio.h:151-161`). The sink of `pyagents.py` returns it if it has no commodities.
  * `C122_fails_kind`: A product in a portfolio of materials is not detected before it is cast (`lib.pyx:1827`, `gentypesystem.py:2180`).
  * `C122_fails_none`: `None` for the requests raises `TypeError`, while `None` for the bids is accepted (`agents.pyx:605-607,643-644`).
  * `C122_fails_preference_value`: It is worth 1 whatever the requester said: `normalize_bid_portfolio` puts 1 where C++ puts NaN (`lib.pyx:1882-1883`).
  * `C122_fails_preference`: The intended property fails: the request has preference 5, the trade preference 1.
  * `C122_fails_pair`: A portfolio that is one bid written as a pair is taken for two bids: the resource is not a bid (`lib.pyx:1867-1868,1900`).
  * `C122_fails_missing`: Nothing checks that a bid has a request and an offer: what is cast is `None` (`lib.pyx:1882-1891`, `gentypesystem.py:2208-2212`).
  * `C122_bids_tuples`: A tuple in a list of bids that is not a pair raises `ValueError`.
  * `C122_fails_bid_kind`: Nothing checks the classes of the request and the offer (`gentypesystem.py:2208-2212`).
  * `C122_bids_capacity`: A capacity that is not positive is refused.

### C123 Agents written in Python see the preferences and requests as they are

Whenever an agent written in Python adjusts preferences, the dict it is given lists each trade of the preference map once and with its present value, and afterwards the map has the values that it returned and otherwise the old ones; so that a trader and its parents act in turn on the preferences. Bidders written in Python are given all requests of each commodity. The commodity of a bid is that of its request.

* Status: partial.  Holds for each trader if agents written in C++ adjust preferences only before the first agent written in Python, the agents written in Python leave the dict alone and use its keys, and the time and address of the map were not used before. False otherwise: after an agent written in C++ the next one written in Python sees and writes back old values; keys made by an agent appear beside the old ones; changes to the dict itself are seen by later agents in Python and nobody else; a map at an address used before at the same time is not looked at. The commodity of a bid is None unless the commodity of its request was read before.
* Modelled and proved: `Model/PyPrefs.lean` has wrappers with an identity and a pointer, dicts keyed by pairs of wrappers, the cache with its time and address, and agents as arbitrary functions. The specification speaks of entries only: what a map says of a trade, when a dict shows a map, when a map is another one with updates, and what agents acting in turn make of it. The invariant is that the cache, if it is for this map, shows it; it is kept by `update` because different keys of the dict have different pointers. Chains and whole simulations are inductions. The failures are general equations or computed witnesses.
* Theorems: `Verif/Props/PyPrefs.lean`.

  * `C123_effect`: What an agent written in Python returns takes effect: the trades it names have the values it gives, all others keep theirs.
  * `C123_first`: The first agent written in Python sees the preferences as they are.
  * `C123_chain`: Every agent in a chain that is written in Python sees the preferences as they are at that time, and the preferences in the end are what the agents make of them one after the other.
  * `C123_all`: Over a whole simulation: no two traders have their preferences at the same address in the same time step, so that every agent written in Python sees the preferences as they are, and the preferences in the end are what the agents make of them one after the other.
  * `C123_requests`: Every bidder written in Python sees all requests for each commodity, provided that a map of requests does not change between the first and the last of them in a time step, and that different maps have different addresses or times.
  * `C123_requests_shared`: The second bidder gets the wrappers of the first.
  * `C123_commodity_partial`: `bid.request.commodity` is the commodity of the request, as long as the attribute holds nothing else.
  * `C123_fails_cpp`: The intended property fails.
  * `C123_fails_cpp_value`: A facility and a region written in Python, and between them an institution written in C++ that sets a preference to 5: the region doubles the 1 that the facility saw, so that the preference is 2 and not 10 (`agents.pyx:143-144`).
  * `C123_fails_wrappers`: It changes the preference, but the next agent sees the trade twice, with the old and the new value, because wrappers of one pointer are not equal (`gentypesystem.py:2141-2142`).
  * `C123_fails_inplace`: Changes to the dict have no effect on the preferences, and later agents see them (`agents.pyx:151-153`).
  * `C123_fails_reuse`: A map at the address of an earlier one at the same time, as in a second simulation in one process, is not looked at: the agent sees the preferences of the earlier one and its updates are written into the later one.
  * `C123_fails_commodity`: It is `None` for every bid whose request was not asked for its commodity before: the property reads the attribute `_commodity` (`gentypesystem.py:2268`).
  * `C123_new_objects`: C123: when the cache is filled anew, every wrapper is a new object, different from all that were made before; an agent that keeps a request or a bid from an earlier dict does not find it among the keys of the new one. Otherwise no object is made.

### C124 The post-processor makes marked constructors call those of their bases and changes nothing else

After the post-processor, every constructor that was marked in the Cython source calls the constructors of the given bases with its own arguments under their C++ names and is written as a constructor; the declarations of every marked class follow its comment, each in a line; the rest of the file is as Cython wrote it. A file without marks is left as it is.

* Status: partial.  Holds if no argument name is a part of another word of the base calls or of the C++ name of an earlier argument, every mark is in the line that Cython compiles, and every marked constructor has arguments. False otherwise: `y` as second argument breaks the C++ name of the first, because Cython's prefix for arguments has a y; a marked constructor without arguments is an AttributeError; a mark in a line that Cython only repeats puts a colon without bases after the next arguments. A file without a version in its first line is an error even if there are no marks.
* Modelled and proved: `Model/PostCython.lean` follows the script with Python's `find`, `rfind`, slices with negative positions, `replace`, `split`, `strip` and the four regular expressions. The specification has only texts: arguments as trees of templates with their names, base calls as words and other characters, and files as pieces of text between what is marked. Searches are turned into splits of the text by lemmas about patterns of which no proper begin is an end; templates are removed by induction on their depth; renaming is an induction on the arguments that uses that no name is a part of another; the loops are one induction on the list of marked items. The failures are two general theorems and a witness.
* Theorems: `Verif/Props/PostCython.lean`.

  * `C124_process`: : a file with a version in its first line, in which every mark is at a constructor or a class as Cython writes them, becomes the file in which every marked constructor calls the constructors of its bases with its arguments and has no type, and the declarations of every marked class follow its comment; nothing else changes.
  * `C124_unmarked`: : a file without marks is left as it is.
  * `C124_no_version`: What the code does besides: a file without a version in its first line is an error, even when there is nothing to do.
  * `C124_no_arguments`: What the code does besides: a marked constructor without arguments is an error, whatever is in the file after it.
  * `C124_repeated_line`: What the code does besides: a mark in a line without a later number sign — as in the comments in which Cython repeats lines around the line that it compiles — puts a colon without bases after the next arguments.
  * `C124_not_any_names`: The negation: with a name that is a part of another one, like `y`, which is in the names that Cython gives to arguments, the constructors of the bases are called with names that do not exist.
  * `C124_broken_name`: What is written for that constructor: `Base(__p__pyx_v_yx_v_x,__pyx_v_y)`, in which the first name does not exist.

### C125 Agents written in Python serve their trades and receive what is sent

A supplier written in Python is given one object for each of its trades; every trade that it answers becomes one response with the resource that it gave, and if it answers all, every trade of the exchange reaches its requester exactly once. A requester written in Python is given every response. The source written in Python bids for all requests of its commodity within its capacity and serves every trade with exactly its amount; the sink requests at most its capacity and no more than it has room for.

* Status: partial.  Trades answered once become responses and are delivered. False where a trade is answered in two shipments (the first is lost, without an exception), where an entry is not a living trade with a resource of the right kind (undefined behaviour in place of an exception; a trade kept for a later step is such an entry). The sink ignores max_inv_size and requests its capacity twice in each step, as material and as product; with capacity zero its portfolio has NaN coefficients.
* Modelled and proved: `Model/PyExec.lean` has trade objects with an identity and an address, memory as a partial map from addresses to trades, the answers of agents with `dict(…)` and its errors, and the source and sink of `pyagents.py` as functions to the values of C122. What is answered is stated by the objects of the agent and the trades at their addresses. That every trade arrives composes with C18; bids and requests of source and sink compose with C122. Repeated trades: an induction from the end of the list. The failures are general equations.
* Theorems: `Verif/Props/PyExec.lean`.

  * `C125_given`: A supplier is given one object for every trade, in order; no two are the same object, and each is the trade in its place.
  * `C125_responses`: A mapping, or a list of pairs, of living trades and resources of the right kind: every entry becomes a response, in order, and nothing else does.
  * `C125_all`: An agent that answers every one of its trades once makes one response for every trade.
  * `C125_executed`: If every supplier answers every one of its trades once, every trade of the exchange reaches a requester exactly once.
  * `C125_repeated`: A list of pairs in which trades occur more than once counts as the mapping with the last resource of each trade, in the order of first appearance.
  * `C125_fails_shipments`: A trade that is answered in two shipments: the first is lost.
  * `C125_fails_unchecked`: Nothing is checked: an entry that is not a living trade with a resource of the right kind is used all the same, which is undefined behaviour and no exception.
  * `C125_fails_kept`: Keeping a trade for a later step: its address is no longer that of a trade.
  * `C125_errors`: What has no length raises `TypeError`; so does a list with something that is not iterable; a list with something that is not a pair raises `ValueError`, even if entries before it cannot be used.
  * `C125_silent`: `None` and what is empty are no responses: the trades are silently not served.
  * `C125_accept`: A requester is given a dict with one entry for every response, in order: the trade of the response, under an object of its own, and its resource; none is lost even if two responses are for the same trade.
  * `C125_sink_accepts`: The sink pushes every resource of every response into its inventory.
  * `C125_source_bids`: A source with a positive capacity bids for every request of its commodity, in one portfolio limited by its capacity: for what is asked if it has no recipe, and otherwise for no more than its capacity.
  * `C125_source_idle`: Without requests for its commodity a source makes no portfolio.
  * `C125_source_trades`: A source answers every trade with a new material of exactly the amount of the trade.
  * `C125_sink_requests`: A sink with a positive capacity and some commodities requests its capacity once, of any of its commodities.
  * `C125_room_partial`: What remains: a sink with room for its capacity requests no more than the room.
  * `C125_fails_room`: It does not: a full sink requests its capacity (`pyagents.py:48-62`).
  * `C125_fails_capacity`: It is requested twice in each time step: as material and as product.
  * `C125_fails_shut`: A sink without capacity, which is a sink that is shut, cannot request nothing: its portfolio has the mean quantity zero, by which is divided (`request_portfolio.h:155-160`), before its constraint is refused.

### C126 JSON values in Python hold what they are given and behave like lists and dicts

Converting a Python value to JSON succeeds exactly if everything in it has a form in JSON, and gives a value that says the same. A JSON array in Python behaves like a list and a JSON object like a dict: reading, assigning and deleting items and slices, append, extend, +=, insert, reverse, index, count, remove, pop, keys, get, setdefault and update do what they do for lists and dicts, and a call that raises an exception changes nothing.

* Status: partial.  False where: Python is 3.10 or later (no list, number, bool or None can be converted); a string holds the byte 0; a slice takes values of another number; an insert is at the end or beyond (IndexError, and a null is added); pop takes an array or an object (what is returned shows the next item or freed memory) or a missing key; a missing key is read (None, and the key is added); a value cannot be converted (append and assignment leave a null behind); in and index disagree; a file is parsed (AttributeError) or a text that is not JSON (no error); str of a string with special characters.
* Modelled and proved: The model is `Model/PyJson.lean`: the conversion of Python values, the methods of `Value` for arrays and objects as the code runs them (loops of swaps and resizes, members that `operator[]` creates), and `Reader.parse`, over the JSON values and the parser of C112's model. The value after a call is given also when the call raises an exception. The specification (`Spec/PyJson.lean`) says which Python values have a form in JSON, what it is to say the same, what position an index means, and what a dict holds. The loops are shown to be `eraseIdx`, `insertIdx`, `reverse` and the list without the positions of a slice. Which Python is running is a parameter. Negations, each as a general equation: see the note. Comparison operators, `clear`, the writers and comments in JSON texts are not part of this claim.
* Theorems: `Verif/Props/PyJson.lean`.

  * `C126_converts`: C126: before Python 3.10, a value can be converted to JSON exactly if it is made of `None`, bools, integers of 32 bits, floats, strings, bytes, JSON values, lists, tuples, sets, and dicts with strings as keys.
  * `C126_fails_modern`: C126, negation: from Python 3.10 on, where `collections.Sequence` does not exist, a value can be converted exactly if it is made of strings, bytes, JSON values and dicts of those. No list, no number, no bool and no `None` can.
  * `C126_means`: C126: the JSON value says what the Python value says: lists in their order, dicts with exactly their keys, numbers, strings and `None` as they are.
  * `C126_fails_nul`: C126, negation: a string is cut at its first byte 0, and two keys that are the same up to there become one.
  * `C126_fails_int`: C126, negation: an integer that does not fit in 32 bits cannot be stored; one that a JSON text put there cannot be read.
  * `C126_read`: C126: reading an item gives the value itself; arrays and objects are seen in place.
  * `C126_fails_unread`: C126, negation: every other value, an integer that is not one of C, cannot be read.
  * `C126_list_get`: C126: `self[i]` of an array is the item that the index means, also from the end; anything else is an `IndexError`. The array stays as it is.
  * `C126_list_set`: C126: `self[i] = p` changes the item that the index means.
  * `C126_list_del`: C126: `del self[i]` takes out the item that the index means and keeps the order of the others.
  * `C126_slice_get`: C126: a slice of an array is a new array of the items at its positions.
  * `C126_slice_del`: C126: `del self[a:b:c]` takes out exactly the items at the positions of the slice and keeps the order of the others.
  * `C126_slice_set_partial`: C126, partial: assigning as many values as a slice has positions changes exactly the items there. Missing, because the code does not do it: a slice of step 1 takes the length of what is assigned.
  * `C126_fails_slice`: C126, negation: values beyond the positions of a slice are dropped, and positions beyond the values keep their items; neither is an error, and the length never changes.
  * `C126_append`: C126: `append` adds the value at the end of an array; null becomes an array.
  * `C126_fails_append`: C126, negation: if the value cannot be converted, `append` raises the exception but the array has a null more.
  * `C126_extend`: C126: `extend` and `+=` add the values at the end, in order.
  * `C126_insert_partial`: C126, partial: `insert` puts the value before the item that the index means. Missing, because the code does not do it: an index beyond the items means the end.
  * `C126_fails_insert`: C126, negation: `insert` at the end of an array, at any index beyond it, or into an empty array is an `IndexError`, and the array has a null more.
  * `C126_reverse`: C126: `reverse` reverses an array.
  * `C126_index`: C126: `index` gives the first position in the range whose item is equal, in the sense of C++, to the value; `ValueError` if there is none.
  * `C126_count`: C126: `count` counts the items that are equal to the value.
  * `C126_none`: C126: `None` stands for the null value whatever the version of Python: `count(None)` counts the nulls.
  * `C126_remove`: C126: `remove` takes out the first item that is equal to the value.
  * `C126_fails_in`: C126, negation: `in` compares as Python does and `index` as C++ does: `1 in v` is true for the array `[1.0]`, but `v.index(1)` is a `ValueError`, and `v.count(1)` is 0.
  * `C126_pop_partial`: C126, partial: `pop(i)` gives the item and takes it out. Missing, because the code does not do it: the same for items that are arrays or objects.
  * `C126_fails_pop`: C126, negation: `pop(i)` of an item that is an array or an object takes it out, but what is returned shows the item that came after it; for the last item it shows freed memory.
  * `C126_dict_get`: C126: `self[k]` of a key that is there is its value; the object stays as it is.
  * `C126_fails_read`: C126, negation: `self[k]` of a key that is not there is `None`, not a `KeyError`, and the object has the key afterwards, with the value null. Null becomes an object with this key.
  * `C126_dict_set`: C126: `self[k] = p` gives the key the value and leaves the other keys as they are; null becomes an object.
  * `C126_fails_assign`: C126, negation: if the value cannot be converted, the exception is raised, but a key that was not there is there afterwards, with the value null.
  * `C126_dict_kept`: C126: an assignment to a key that is there changes nothing if the value cannot be converted.
  * `C126_dict_del`: C126: `del self[k]` takes the key out and leaves the others as they are; a key that is not there is no error.
  * `C126_dict_keys`: C126: `in`, `keys` and `get` of an object tell of exactly its keys; the keys come in order, each once; `get` does not add any.
  * `C126_setdefault`: C126: `setdefault` gives the value of a key that is there; otherwise it sets the key and gives the new value.
  * `C126_update`: C126: `update` gives every key of the dict its value, a later one for the same key, and leaves the other keys as they are.
  * `C126_fails_popkey`: C126, negation: `pop(k)` of a key that is not there is `None`, not a `KeyError`; of a key whose value is an array or an object it shows freed memory.
  * `C126_popkey`: C126: `pop(k)` of a key that has a plain value gives the value and takes the key out.
  * `C126_fails_file`: C126, negation: a file cannot be parsed: its text is asked for a method that does not exist.
  * `C126_parse`: C126: parsing a string gives the value of the text.
  * `C126_fails_parse`: C126, negation: a text that is not JSON is no error.
  * `C126_str_partial`: C126, partial: `str` of a string is the string, if it has no quotes, no backslashes and no control characters. Missing, because the code does not do it: the same for the others.
  * `C126_fails_str`: C126, negation: `str` of a string shows it as a JSON text does: a line break is two characters.

### C127 A mock simulation has the agents that were asked for, in the steps that were asked for

Each source and sink added to a mock simulation has its own name and the commodity, recipe, capacity and lifetime last given, or the documented defaults. It enters in the step asked for, once, and if it has a lifetime of n steps it is there in exactly n steps; without one it never leaves. The agent under test is built in step 0 and has the lifetime given.

* Status: partial.  False where: a capacity has more than six significant digits (rounded); DummyProto is given a commodity (ignored, the commodity is always the word commod); a lifetime is 0 (like 1 for an agent that starts at once, otherwise the simulation ends with an error); the start is -1 (means step 1); the agent under test does not schedule its own decommissioning (its lifetime has no effect).
* Modelled and proved: `Model/MockSim.lean` has the configuration calls, the values read back from the text that `Finalize` writes (capacities with six digits, as in C97), `Build` of the two archetypes, the two queues and the steps. What was asked for is the last value of each call; what must happen is a set of entries and exits with times. The proof is an invariant over the steps that gives the entries, the queue and the exits after k steps. The text of the XML is not modelled, nor what agents do in a step.
* Theorems: `Verif/Props/MockSim.lean`.

  * `C127_configuration`: C127 (configuration). A mock agent holds the last value given with each call. Without a call it has no recipe, the capacity 1e299, the start 0 and the lifetime -1.
  * `C127_names`: C127 (names). The mock agents made in a process have different names, which are also different from that of the agent under test; there is one for each call.
  * `C127_prototype_partial`: C127 (prototype). The prototype made of a mock agent is a source or a sink as asked, with the lifetime, the commodity and the recipe asked for. Its capacity is the one asked for if that has at most six significant digits, and within 5 millionths of it in general.
  * `C127_dummy_partial`: C127 (dummy prototypes). They are sources without a lifetime, which build no agent by themselves.
  * `C127_lives_partial`: C127 (lives). Let the mock agents start in steps ≥ 0, and let those that start later have no lifetime 0. Then the simulation runs. Every mock agent enters once, in the step asked for, if the simulation gets there, and the agent under test enters in step 0. A mock agent with a lifetime of `n ≥ 1` steps is there in exactly `n` steps and leaves at the end of the last, if the simulation gets there; without a lifetime it never leaves; nobody leaves twice. The same is true of an agent under test which schedules its decommissioning itself.
  * `C127_past`: C127 (start in the past). A mock agent whose start is less than -1 is refused, and nothing is scheduled or built for it.
  * `C127_fails_capacity`: C127 disagreement: the capacity asked for is rounded to six digits on its way through the text.
  * `C127_fails_dummy`: C127 disagreement: the commodity given to `DummyProto` is ignored.
  * `C127_fails_zero`: C127 disagreement: a lifetime of 0 of an agent that starts in step 0 is the same as one of 1; of an agent that starts later it ends the simulation with an error, after the agent has entered.
  * `C127_fails_start`: C127 disagreement: the start -1, in the past, means step 1.
  * `C127_fails_tested`: C127 disagreement: the lifetime of the agent under test has no effect, unless the archetype schedules its decommissioning itself: no other agent does it.

### C128 The mathematical programming solver finds the cheapest admissible matching

Run with exact libraries for linear and mixed integer programs, ProgSolver ends normally; the matches it sets are the flows above eps of a flow that respects all supply capacities, node quantities, exclusive arcs and exclusive groups and that costs least among all such flows, where the cost is flow divided by preference plus the pseudo cost of what the request groups miss. It returns that cost. Old matches and those of the greedy run before it do not matter, and its result is at most the objective of the greedy solver.

* Status: partial.  All of it is proved but for the comparison with the greedy solver, which is false in general: the greedy solver does not look at exclusive groups and may sell one offer twice, for a lower objective. It is proved where the matches of the greedy solver are admissible. The libraries are assumed to find an optimal solution where there is one; that there is one is proved, by elimination of variables.
* Modelled and proved: `Model/ProgSolver.lean` models `SolveGraph`, the choice between the linear and the mixed integer library, and the order in which the greedy run leaves groups and nodes; the translator is the model of C50. `Lemmas/LinProg.lean` proves by Fourier-Motzkin elimination that linear and 0-1 programs over the rationals that are feasible and bounded below attain their optimum. `Lemmas/ProgSolver.lean` relates the objective of the program to the cost of a flow in both directions (`cost_le`, `cost_attained`), shows that the flow of a feasible point is admissible, and that reordering changes neither. Disagreement: the greedy objective may be lower than the optimum of the program, since the greedy solver ignores exclusive groups (`C128_fails_greedy`: one offer sold twice). Not modelled: the time limit (set on the linear solver only, never on the mixed integer one), the status of the library (never looked at by the code), reports and MPS files.
* Theorems: `Verif/Props/ProgSolver.lean`.

  * `C128_best`: With exact libraries the solver, once its greedy solver has run, sets as matches the quantities above `eps` of a flow that is admissible — within nodes and capacities of the suppliers, exclusive arcs used whole or not at all, at most one arc in an exclusive group — and that costs least among all admissible flows. It returns that cost.
  * `C128_type`: The solver knows two types of solvers; with any other it stops with a `ValueError` before it touches the matches.
  * `C128_refused`: A preference that is not positive is refused with a `ValueError`, and no matches are left.
  * `C128_null`: A library that finds no solution is not noticed: the null pointer it leaves is read.
  * `C128_stopped`: Whatever stops the greedy solver stops the solver, with the matches that the greedy solver had made.
  * `C128_forgets`: Neither the matches that were on the graph before nor those of the greedy solver remain or matter, and `"clp"` and `"cbc"` are the same.
  * `C128_greedy_partial`: The solver is at least as good as the greedy solver: what it returns is at most the objective of the greedy solver, provided every request group has its quantity as its only capacity and the matches of the greedy solver are admissible. Full statement: the same without the hypothesis on the matches of the greedy solver. That is false, see `C128_fails_greedy`.
  * `C128_ends`: On graphs where the greedy solver meets no zero unit capacities the solver always ends normally, with the cheapest admissible flow.
  * `C128_fails_greedy`: The full property fails: the greedy solver does not look at the exclusive groups and sells the same offer twice, for an objective of 2; the program sells it once, and returns 2.1.

### C129 Containers for values of any type behave as variables and do not lose memory

A boost::spirit::hold_any that has been constructed, copied, assigned (from another container or from a value), exchanged, reset and destroyed in any order always holds the value last put into it: a cast to its type gives that value, a cast to another type is refused. No value is destroyed twice, no memory is freed twice or used after it was freed, no two containers share memory, and when all containers are destroyed all memory has been freed.

* Status: partial.  False where a value is assigned over a value of more than 8 bytes and is of the same type or has at most 8 bytes itself: the old memory is never freed (the exact number of blocks lost is proved). Also false for the constructor from const char*, which writes a std::string over an 8-byte pointer, and for a = a.cast<T>(), which reads the value after destroying it; nothing in the repository does these two. Everything else is proved.
* Modelled and proved: The model is `Model/AnyHold.lean`: a container is a type number and a word, which is null, a small value itself, a destroyed small value, or the address of a block; a block has the type it was allocated with and a value or none after its destruction. Sizes of types are a parameter. `static_delete`, `destruct`, `clone`, `move`, `reset`, both `assign` functions, the constructors, `swap` and `cast` are modelled as undefined (`none`) where they would read, destroy or free something that is not there, or as another type. The specification is a map of variables, and counts the assignments that give up memory. One invariant, kept by every operation: the containers show the variables, no address is in two containers, and each allocated block is in a container or on a list without repetitions, as long as the count says. Not modelled: copy constructors that throw, `castsmallvoid`, the stream operators, types with alignment above that of a pointer.
* Theorems: `Verif/Props/AnyHold.lean`.

  * `C129_values`: **C129.** Every program that treats its containers as variables runs without a value destroyed twice, a block of memory freed twice or a destroyed value read; and a cast of a container to a type gives the value last put into it when it is of that type and refuses otherwise.
  * `C129_memory`: The memory that is in use after a program: the blocks of the containers, each with its own, and the blocks that were given up without being freed, of which there is one for every assignment of a value of the same type, or of a small one, over a big value.
  * `C129_freed_partial`: The full statement would be that a program that destroys all its containers frees all the memory. It does when no value is assigned over a big value except a big one of another type; containers may be assigned to containers as one likes.
  * `C129_fails_leak`: Memory is lost for good when a value is assigned over a big one of the same type ("we can avoid deallocating and re-use memory", but the memory is not reused), and when a small value is assigned over a big one.
  * `C129_fails_chars`: Where a `std::string` is larger than a pointer, the constructor from `const char*` writes it over the memory behind the container, in every state. (Nothing in the repository uses this constructor.)
  * `C129_fails_alias`: Assignment of a container's own value, `a = a.cast<T>()`, reads the value after it was destroyed, whatever the type is (of types without a destructor, such as `int`, the value is in fact still there).

### C130 Data recorded and queried from Python arrive as they were given

When a program in Python makes data with Recorder.new_datum, add_val and record, every backend gets each datum once and in order after the next flush, with the title, field names, types, values and shapes that were given; a call that cannot be carried out raises an exception and nothing of its datum is recorded. A query from Python gives the columns of the table in order and exactly the values of the rows for which the conditions hold; a value read back converts to the value recorded.

* Status: partial.  False for field names given as text of two or more bytes: record() lets go of the encoded names, while the backends for SQLite and HDF5 read them through the pointer at the flush (proved for every buffer of at least two). The names are right for bytes objects kept by the caller, names of one byte, a buffer of one, and always for backends that use the copies (fields()). A datum whose construction raised is passed on nevertheless, and if it took the last place the next one is written beyond the buffer. tables remembers its first answer. Everything else is proved.
* Modelled and proved: `Model/PyDb.lean` models the buffer of the recorder with an explicit memory: a field name is a pointer to something that stays (a literal, a one-byte object of the interpreter, a bytes object of the caller) or to an object that the Python wrapper of the datum owns, and reading it gives a name only while the object is alive. `add_val`, `record`, the end of the wrapper, `NotifyBackends` and `Flush` follow the code; a datum beyond the buffer is undefined (`none`). The rules for what a backend must get (`Spec.Gets`) mention no memory, only whether a datum was passed on at once or later. Proved by an invariant that ties the slots to the data waiting. Conversions of values are those of C119 and C121. Queries are modelled as a selection of rows with an arbitrary comparison, and the table as a list of rows. Assumed: the caller keeps the bytes objects and the titles it passes, one reference to the datum, and CPython frees an object when the last reference goes (a name read after that is `none`). Disagreements: `C130_fails_names`, `C130_fails_half`, `C130_fails_full`, `C130_fails_tables`.
* Theorems: `Verif/Props/PyDb.lean`.

  * `C130_record`: **C130.** What the backends get of a program that records data from Python, for every size of the buffer: exactly what the rules of the buffer say, and nothing of it is lost or comes twice.
  * `C130_data`: Without failures, all the data come in order, each once, with the names (as strings), types, values and shapes that were given. The names as pointers are right, or can no longer be read.
  * `C130_fields`: So the titles, the names that `fields` gives (which the backend in memory reads), the types, values and shapes are always those given.
  * `C130_lasting_partial`: The full statement would be that all the rows have all their names. They do when the names last: they are bytes objects that the caller keeps, or no longer than a byte.
  * `C130_single_partial`: They also do when the buffer has room for one datum.
  * `C130_fails_names`: Otherwise a name that does not last is read after it was freed: by the time of the flush the Python object for the datum has let go of it.
  * `C130_fails_half`: A datum whose construction ended with an exception is passed on nevertheless, with the values it had got.
  * `C130_fails_full`: When exceptions have filled the buffer, the next datum is taken from beyond its end.
  * `C130_raises`: Making a datum raises an exception exactly when one of its calls says nothing.
  * `C130_errors`: Which exception a call raises.
  * `C130_back`: A recorded value that is read back from the database converts to the recorded value again; if the value given to `add_val` denotes it, what is read back does.
  * `C130_query`: A query gives the columns of the table in order, each with the values of the rows for which the conditions hold, in the order of the rows. Conditions about columns that there are not do not count.
  * `C130_refuses`: A condition without sense ends the query with an exception.
  * `C130_tables`: The tables that there are, the first time one asks.
  * `C130_fails_tables`: Later answers are the first one, whatever has been recorded since.

### C131 Indented JSON has one layout and is read back as the value written

StyledWriter writes every JSON value in a layout that depends on the value only, not on what the writer was used for before: each member of an object on a line of its own, an array on one line exactly if its items are plain, fewer than 25, and the line is shorter than 74 characters, each level indented by three spaces. The text is JSON and reading it gives the value written; str() of a JSON value in Python is that text, and for a string the string.

* Status: partial.  The layout is proved in full. Reading back gives the value with doubles rounded to 16 digits and integer types by size (as for the other writers, C112); two doubles are written in the same way. str() of a string gives the escaped text, not the string. Values with comments are not modelled.
* Modelled and proved: `Model/Styled.lean` is the writer as a state machine: document, indentation, collected texts, and the flag that says whether texts are collected; every function changes the state as the code does. `Spec/Styled.lean` is a layout without state. The proof shows by induction on the value that the state machine appends the layout, that the indentation comes back, and that texts are collected only for values with nothing in them; the key is that a document ends with something other than a space or a line feed after each value (`layout_ends`). That the layout is JSON uses the grammar and the lemmas of C112. Not modelled: comments, sizes beyond `int`, `StyledStreamWriter`, which nothing in the repository uses but `operator<<`.
* Theorems: `Verif/Props/Styled.lean`.

  * `C131_layout`: **C131.** `StyledWriter` writes every value in the layout of the specification, and a line feed: objects on a line for each member, arrays on one line if it is short and has only plain items, and each level of depth indented by three spaces. It does not matter what the writer was used for before.
  * `C131_reads_partial`: What is written is read back, with the doubles rounded to 16 digits and the type of an integer chosen by its size. The full statement is that it is the same value; see `C131_fails_real`.
  * `C131_same_partial`: It is the same value if the doubles have at most 16 digits, integers up to 2³¹-1 are signed and those above unsigned.
  * `C131_str_partial`: `str()` of a value that is no string is its layout, without the line feed; reading it gives the value back.
  * `C131_text`: `str()` of a string is the text between the quotes: it stands for the string, with its escapes.
  * `C131_fails_str`: So it is not the string if that has a quote in it.
  * `C131_fails_real`: Two doubles are written in the same way, so that one of them is not read back.

### C132 Agents are made from the module their spec names, and modules are closed

DynamicModule::Make gives an agent of the constructor that the spec names, in the first library on the search path or else in the Python module, whatever was made, asked or closed before, and an IOError if there is none; Exists is true exactly if Make succeeds; IsPyAgent is true exactly for specs of Python modules; a library is opened once for each spec and stays open while its constructors are in use; after CloseAll none is open; discovery lists exactly the archetypes of a library that exist.

* Status: partial.  Proved for specs without colons in their fields. The code violates the rest: specs that differ in which field a colon belongs to share a module; a Python module without the class passes Exists but ends the program in Make (null pointer); Exists, discovery and failed calls of Make leave the library open for ever; IsPyAgent uses a null pointer for every spec that exists and was not used before; after a failed dlclose deleted modules stay in the map; discovery in a directory with a colon throws ValueError.
* Modelled and proved: `Model/DynMod.lean` is `Make`, `Exists`, `IsPyAgent`, `CloseAll`, the constructor with `dlopen` and `dlsym`, and `DiscoverSpecs`, over an arbitrary system (files, libraries, symbols, Python classes) with the count of how often each library is open; calling into a closed library, using a deleted module or a null pointer is a crash. `Spec/DynMod.lean` says which file or Python module a spec stands for, which constructor it names, and how often a sequence of operations has to keep a library open. The proof is an invariant over runs of any length: every entry of the map belongs to a spec used since the last `CloseAll`, and the count of a library is the number of its entries plus what questions and failed attempts left open. **Disagreements**: `C132_fails_colon`, `C132_fails_class` (a Python exception in `make_py_agent` is not noticed and `a->spec` is called on the null pointer), `C132_fails_open`, `C132_fails_python` (`modules_[spec]` gives a null pointer), `C132_fails_close`, `C132_fails_discover`.
* Theorems: `Verif/Props/DynMod.lean`.

  * `C132_make_partial`: **C132 (partial), making**: whatever was made, asked and closed before, an agent is made by the constructor that the spec names and gets the text of the spec; without one there is an `IOError`. Missing: specs with colons in their fields (`C132_fails_colon`), and Python modules without the class, which end the program (`C132_fails_class`).
  * `C132_registered`: Constructors that tests register are used before any library, and nothing is loaded.
  * `C132_again`: The second agent: after an agent was made, the next one of the same spec is made the same way, nothing is opened, and it does not matter which files there are by then.
  * `C132_exists`: `Exists`: it is true exactly if there is a Python module, or a library with the constructor; no module is kept, but the library that was opened stays open.
  * `C132_makable_partial`: **C132 (partial)**, `Exists` and `Make`: if `Exists` is true, the agent can be made. Missing: Python modules without the class (`C132_fails_class`), and colons.
  * `C132_python_partial`: **C132 (partial)**, `IsPyAgent`: it is false if there is no such module, and for a spec that was used since modules were closed it tells whether the module is of Python. Missing: specs that were not used (`C132_fails_python`).
  * `C132_open_partial`: **C132 (partial)**, open libraries: a library is open once for each spec used since modules were closed, however many agents were made of it, and once for each question and each failed attempt. Missing: the latter should not keep it open (`C132_fails_open`).
  * `C132_close_partial`: **C132 (partial)**, closing: libraries can always be closed if the system does not refuse; nothing is kept then, and a library is still open only because of questions and failed attempts. Missing: a system that refuses (`C132_fails_close`).
  * `C132_closed`: Without questions and failed attempts no library is open after closing.
  * `C132_discover_partial`: **C132 (partial)**, discovery: for a directory and a library without colons, the specs found in the library are exactly those of the archetypes named in it that exist. Missing: directories with a colon (`C132_fails_discover`), and texts as in C83.
  * `C132_fails_colon`: **C132 fails**: specs that differ only in which field a colon belongs to share a module, so that the second one gets an agent of the first one's library.
  * `C132_fails_class`: **C132 fails**: for a Python module without the class `Exists` is true and `Make` ends the program: the exception of Python is not noticed, and the null pointer is used.
  * `C132_fails_open`: **C132 fails**: a library that was only asked for, or that does not have the archetype, is open for ever.
  * `C132_fails_discovery`: **C132 fails**: discovery leaves the library open once for every name that looks like an archetype, whether it is one or not.
  * `C132_fails_python`: **C132 fails**: for a spec that exists and was not used, `IsPyAgent` uses the null pointer, whatever kind of module it is.
  * `C132_fails_close`: **C132 fails**: if the system refuses to close the second library there is an exception, and then the first module is deleted but still in the map: closing again, or making an agent of it, ends the program.
  * `C132_fails_discover`: **C132 fails**: in a directory with a colon in its name no archetype is found: there is a `ValueError` as soon as the library names one.

### C133 Agents in Python live as long as their C++ agents and are always the same object

Whatever is done with agents, none is deleted twice and no method is called on a Python object that does not live any more; an agent is always given to Python code as the same object, the one its methods are called on; an object is freed after its agent once nobody has it; an agent made in Python is one agent; its annotations are the same whenever they are read.

* Status: partial.  Proved for agents that simulations make. The code violates the rest: an object made by calling the class is deleted twice after del_agent, and is given to Python as another object; clearing the cache while agents live, and using an object after its agent was deleted, use freed memory; every region, institution and facility in Python is two agents because the base class has already made one; annotations are empty from the second reading on.
* Modelled and proved: `Model/PyLife.lean` is the ownership of agents written in Python: C++ agents that live, Python objects with `ptx`, `_free` and the number of references that the user has, and `_AGENT_REFS`; operations are what C++, Python and the user do (make, clone, `agent_to_py`, forget, call, `DelAgent`, clear), and using what does not live is a crash. The proof is an invariant over all sequences: agents and cache entries correspond, objects are never free, and an object outside the cache is held by the user. **Disagreements**: `C133_fails_double`, `C133_fails_same`, `C133_fails_stale` (objects made by calling a class), `C133_fails_clear`, `C133_fails_use`, `C133_fails_orphan` (Cython runs `__cinit__` of the base class first, so `self.ptx == NULL` always holds in `_Agent.__cinit__` and two agents are made), `C133_fails_annotations` (`annotations` remembers the empty value on the second reading).
* Theorems: `Verif/Props/PyLife.lean`.

  * `C133_safe_partial`: **C133 (partial), no crash**: agents that are made, cloned, initialised, given to Python, forgotten, called and deleted in any order never end the program: nothing is deleted twice, and no method is called on an object that does not live. Missing: objects made by the user (`C133_fails_double`), clearing the cache (`C133_fails_clear`), using deleted agents (`C133_fails_use`).
  * `C133_alive_partial`: **C133 (partial), lifetime**: while an agent written in Python lives, so does its object, and it belongs to no other agent.
  * `C133_same_partial`: **C133 (partial), the same object**: once an agent was given to Python code as an object, it is given as that object until it is deleted; for an agent written in Python it is the object that methods are called on.
  * `C133_freed_partial`: **C133 (partial), nothing remains**: an object whose agent was deleted lives only because the user has it, and is not in the cache; the cache has entries for agents that live only.
  * `C133_delete_partial`: **C133 (partial), deleting**: an agent is deleted together with its entry in the cache and with its object if the user does not have it; no other agent and no other object is touched.
  * `C133_annotations_partial`: **C133 (partial), annotations**: the first time they are read, they are those of the agent. Missing: every further time (`C133_fails_annotations`).
  * `C133_fails_double`: **C133 fails**: an agent that the user made by calling the class and that is deleted through the context is deleted again when the user forgets the object.
  * `C133_fails_same`: **C133 fails**: such an agent is given to Python code as another object than that of the user.
  * `C133_fails_stale`: **C133 fails**: when the user then forgets the first object, the agent is deleted; the second object remains in the cache for ever, and using it uses the deleted agent.
  * `C133_fails_clear`: **C133 fails**: after the cache is cleared (`CloseAll`) the objects of agents that live are gone, and the next call ends the program.
  * `C133_clear`: Clearing the cache empties it, frees the objects that were in it and that nobody has, and keeps all others.
  * `C133_fails_use`: **C133 fails**: an object that the user keeps still has the pointer to its agent after the agent was deleted.
  * `C133_fails_orphan`: **C133 fails**: every region, institution or facility that is made in Python is two agents: one is never used, has a number, and remains in the list of agents when the other is deleted.
  * `C133_fails_annotations`: **C133 fails**: the annotations of an agent are empty every time but the first.

### C134 Running simulations from Python does exactly what the arguments say

The command line in Python and SimState do exactly the steps that the arguments ask for (options that print, opening the output by its extension, registering backends, reading, loading with the right schema, initialising, running, flushing, announcing success), in this order and only up to the first that fails; the input that is named is the one that is run; options that print do not change what is run; success is announced only after everything was done; the default output can be opened; the function that closes libraries is registered once.

* Status: partial.  Proved for all arguments, with inputs given as the positional argument and default outputs of inputs whose names have another character than dots. The code violates the rest: --input-file is overwritten by the default of the positional argument, so nothing runs and nothing is said; a default output for a name of dots has no extension; other extensions than .h5 and .sqlite are refused; the output is opened although the input cannot be read; what --rng-schema and --schema print depends on later options; a state that is loaded again keeps falling back on the old file; a state that was not loaded fails when it is deleted.
* Modelled and proved: `Model/PyMain.lean` models the command line in Python (the order of actions of `argparse`, `set_schema_path`, `run_simulation`, `print_main_schema`) and `SimState` (default output, `load` with its parts, `run`, deletion) as computations that record each event when it is tried; the parts that are called are arbitrary functions. The specification says which steps a list of arguments asks for, with the last of repeated options, and performs steps until one fails; the theorem says that `main` is the performance of these steps. **Disagreement with the code**: `cyclus --input-file x` does nothing at all, because the positional argument with the same destination and `nargs='?'` is set to its default after all options; `C134_fails_input`. Others: `C134_fails_default`, `C134_fails_extension`, `C134_fails_created`, `C134_fails_order`, `C134_fails_reload`, `C134_fails_del`.
* Theorems: `Verif/Props/PyMain.lean`.

  * `C134_main`: For the command line: exactly the steps that the arguments ask for happen, up to the first that fails.
  * `C134_load`: For `SimState.load`: what happens, and what the state is afterwards.
  * `C134_memory`: The backends in memory: none is registered unless it is asked for; the user's own is taken as it is; one that is made falls back on the file that was just opened.
  * `C134_extension`: The extension of a path is what the library calls so.
  * `C134_success`: : success is announced only if there was one input, and it was read, loaded, initialised and run, and everything was flushed to the output that is named, in this order, after all options were acted on.
  * `C134_display`: : if the options that print something succeed, then the simulation is the one without them.
  * `C134_input_partial`: : with one input, given as the positional argument, it is the input of the simulation.
  * `C134_fails_input`: **C134 fails**: `--input-file` is overwritten by the default of the positional argument; nothing is run and nothing is said.
  * `C134_no_input`: Without an input nothing is run, whatever else is given.
  * `C134_fails_created`: **C134 fails**: with `--rng-print` and no input, and with an input that cannot be read, the output is opened all the same.
  * `C134_fails_extension`: **C134 fails**: an output with another extension, or none, is refused.
  * `C134_fails_order`: **C134 fails**: what `--rng-schema` prints depends on whether `--flat-schema` comes before or after it.
  * `C134_too_many`: Two positional arguments are an error, and no file is opened; but it comes after all options were acted on.
  * `C134_default_partial`: : without a path the output is in the current directory, named after the input without its extension, and an HDF5 file.
  * `C134_default_text`: With a text as input the output is `cyclus.h5`; without input and format there is no default.
  * `C134_fails_default`: **C134 fails**: the default output for an input whose name has only dots has no extension.
  * `C134_run`: Running and flushing: a state that was loaded is run, then flushed; if the simulation fails it is not flushed here.
  * `C134_fails_del`: **C134 fails**: a state that was made but not loaded fails when it is run or deleted.
  * `C134_fails_reload`: **C134 fails**: a state that is loaded again with another output keeps the backend in memory that falls back on the first one.
  * `C134_once`: : however many states are made, the function that closes the libraries is registered once.

### C135 Input files in Python mean the simulation they define, and the format decides how an input is read

An input in Python is run, ended by a line break, and gives exactly the text of the simulation it defines: of simulation, SIMULATION and Simulation the first that is defined, called if it can be called, itself if it is a text, decoded if it is bytes, written in JSON if it is a mapping; everything else is an error. JSON converted to Python is read back. Without a format the extension of a file decides whether it is converted from JSON or Python or taken as XML; with a format the input is the text itself. XMLParser reads a file, or a raw text, in its format.

* Status: partial.  Proved for texts without a character 0, for objects in JSON, for the formats none, json, py and xml, and for raw texts without a format. The code violates the rest: texts are cut at a character 0; every exception in a Python file arrives in C++ as an empty text; JSON whose top is a list is converted to Python that is not an input; a raw text with a format is replaced by the empty text; unknown formats are taken for XML; with a format the path of a file is converted instead of the file.
* Modelled and proved: `PySource` models `py_to_json`, `json_to_py`, their callers, `LoadStringFromFile` and the constructor of `XMLParser`. Python is arbitrary: what a program defines, what can be called, which values are texts, bytes or mappings, and `json` and `pprint`. The specification `Gives` says in terms of these which text an input has, and the theorem is an equivalence between it and the function. The negations are the behaviours of a `const char*`, of exceptions that C++ does not see, and of the branches of the two functions that choose the format.
* Theorems: `Verif/Props/PySource.lean`.

  * `C135_value_partial`: : an input in Python gives exactly the text of the simulation that it defines, if there is no character 0 in it.
  * `C135_fails_nul`: **C135 fails**: a text is cut at its first character 0.
  * `C135_first`: Of several definitions, `simulation` counts before `SIMULATION`, and this before `Simulation`.
  * `C135_none`: : a value that comes from no name, or is neither a text, nor bytes, nor a mapping, is an error in Python.
  * `C135_fails_error`: **C135 fails**: C++ cannot tell a Python file with an error from one that defines the empty text.
  * `C135_back_partial`: : an object in JSON that is converted to Python is read back as the JSON that Python writes for it, if Python reads what it printed.
  * `C135_fails_back`: **C135 fails**: a list in JSON is converted to Python, but the result is not an input.
  * `C135_file`: : without a format the extension of the file decides: its text is converted from JSON or Python, or taken as it is.
  * `C135_missing`: A file that cannot be read is an error.
  * `C135_text`: : with a format the input is the text itself, and no file is read.
  * `C135_xml`: Conversions from XML to Python go through JSON.
  * `C135_fails_format`: **C135 fails**: a format that is not known is taken for XML.
  * `C135_fails_path`: **C135 fails**: with a format, the path of a file that exists is converted instead of the file.
  * `C135_raw_partial`: : `XMLParser` reads a file in its format, and parses a raw text without a format as it is; without either it raises.
  * `C135_fails_raw`: **C135 fails**: a raw text with a format is replaced by the empty text.

### C136 Repeating actions are done once in every step, and the interpreter lives from the first start to the exit

In every step of a simulation run from Python, the recorder is flushed and then each repeating action is called exactly once, in the order of the list, with its own parameters (none for a plain callable), and its task is put in the queue; without a state nothing happens. A process that uses Python initialises the interpreter once, keeps it until it exits, and finalises it once.

* Status: partial.  Proved for actions that bring their parameters, and for starts and stops that are nested. The code violates the rest: a plain callable fails if it comes first (its parameters are not bound) and otherwise gets the parameters of the action before it; an action by its name alone is taken apart into characters and fails; monitor actions are not found; one bad action stops those after it in every step; a command that returns early never finalises the interpreter; one stop too many finalises it before the exit, again at the exit, and it is never initialised again.
* Modelled and proved: `PyLoop` models `events.loop` with the local variable `params` that stays bound between actions, the table of actions, and the two counters of `pyhooks.cc`. The specification says which function an action stands for, and that it is called with its own parameters; `LastParams` describes what the code does instead, and is proved for all lists. The interpreter is a fold over starts and stops, with the registered call at the exit; its state after nested calls is given in closed form. Waiting for the queue is C39.
* Theorems: `Verif/Props/PyLoop.lean`.

  * `C136_pairs_partial`: : actions that bring their parameters are all put once, in their order, with their parameters, after a flush.
  * `C136_steps_partial`: : every step repeats this.
  * `C136_flush`: : what is put is flushed before: in any step with a state, there is one flush and it comes first; without a state nothing happens.
  * `C136_params`: : the call for each action gets the parameters of the last action, up to itself, that brings some.
  * `C136_stop`: : the loop ends without an exception exactly if every action was put, and otherwise the first that was not put has no function, or no parameters, or its call fails.
  * `C136_fails_unbound`: **C136 fails**: a callable that comes first is not called: its parameters are not bound.
  * `C136_fails_params`: **C136 fails**: a later callable gets the parameters of the action before it.
  * `C136_fails_text`: **C136 fails**: an action that is given by its name alone always fails: the name is taken apart into its characters.
  * `C136_fails_monitor`: **C136 fails**: the actions for monitors cannot be repeated.
  * `C136_fails_rest`: **C136 fails**: in every step, one action that cannot be done keeps those after it from being done.
  * `C136_interp_partial`: : if there are never more stops than starts, the interpreter is initialised once if it is used, is not finalised before the exit, and is finalised at the exit exactly if there were as many stops as starts.
  * `C136_unused`: A process that never starts Python does nothing at its exit.
  * `C136_fails_return`: **C136 fails**: a command that returns before its stop, as for every error and every option that prints, never finalises the interpreter.
  * `C136_fails_stop`: **C136 fails**: one stop too many finalises the interpreter before the exit, and again there.
  * `C136_fails_again`: **C136 fails**: after that it is not initialised again, however often it is started.

### C137 The environment says once and for all where Cyclus is installed, and values and paths are read without loss

The installation is the directory above the one of the program that is found, if it exists, and otherwise the directory fixed at build time without padding; it is decided at the first call and never changes. Schemas are searched in the variable, the installation and the build, and a missing schema is named. Mixed integer programs are switched off exactly by an empty value, f, false or 0 in any case. Lists of paths are split so that nothing is lost; the base of a path is its directory; nuclear data are only ever set to files that exist.

* Status: partial.  Proved for all environments, for paths with a slash and for nuclear data that exist. The code violates the rest: a program found through a relative path is ignored; the message for a missing schema names the other schema; the variable replaces the flat schema and the other alike; an empty item at the end of a list of paths is lost; a path without a slash is its own base; a missing file of nuclear data stays set after the exception.
* Modelled and proved: `EnvPaths` models `GetInstallPath` with its static variable, `rng_schema` with the beginnings of its messages, `allow_milps`, `SplitPath` as a reading of lines, `PathBase`, and the two functions that set the path of the nuclear data. What `which` prints, which files exist, and the fixed directories are arbitrary. `parent_path` is defined on characters, and proved to undo the addition of a name to a directory; splitting is proved to be undone by `join`.
* Theorems: `Verif/Props/EnvPaths.lean`.

  * `C137_found`: : if the program is found in a directory of an existing directory, this is the installation.
  * `C137_fixed`: : otherwise it is the directory fixed when Cyclus was built, without the characters 0 that fill it up.
  * `C137_once`: : the directory is decided once: later calls give the same, whatever the system says then.
  * `C137_fails_relative`: **C137 fails**: a program that is found through a relative path does not say where the installation is.
  * `C137_schema`: : the schema is the one of the variable if it exists, else that of the installation, else that of the build, whose directory is used without the characters 0 that fill it up.
  * `C137_fails_message`: **C137 fails**: the message for a schema that is missing names the other one.
  * `C137_fails_flat`: **C137 fails**: the variable replaces the schema for flat inputs and the other one alike.
  * `C137_milps`: : mixed integer programs are allowed as fixed when Cyclus was built, or unless the variable is one of the four values, in any case.
  * `C137_split`: : a list of paths is split into items without the delimiter which, written with it, give the list again, but for one delimiter at its end.
  * `C137_empty`: An empty list has no items.
  * `C137_fails_trailing`: **C137 fails**: an empty item at the end of a list is lost.
  * `C137_base_partial`: : the base of a path with a slash is what comes before its last slash.
  * `C137_fails_base`: **C137 fails**: a path without a slash is its own base, whatever it is.
  * `C137_set_partial`: : a file that exists is set, a file that does not throws, and the default is only set if it was found.
  * `C137_fails_set`: **C137 fails**: after the exception for a file that does not exist, the path is set to it all the same.

### C138 Inputs are accepted exactly if the schema accepts them, and validators free what they make

After any sequence of schemas and documents, a validator accepts a document exactly if the last text it parsed is a schema that accepts it, and everything else is an error for validation; when it is destroyed, everything it made has been freed exactly once. A parser accepts its input exactly if its text is a document, the files to include can be read, and the result is valid under the schema; otherwise there is an error for validation.

* Status: partial.  Proved for all sequences of calls if contexts can be made; that rejections are errors for validation is proved for documents whose included files can be read. The code violates the rest: Validate returns false for every valid document; the contexts in which schemas are parsed are never freed; a parser that is used after its text could not be parsed dereferences a null pointer; errors of included files are exceptions of libxml++.
* Modelled and proved: `Validator` models `RelaxNGValidator` with its two pointers, numbered objects and the list of those that were freed, and `XMLParser` with the document of its parser. libxml is arbitrary. The specification says which schema counts after a list of calls and that everything is freed once; the proof is an invariant (the context belongs to the schema, and numbers are freed, held or not yet used) over all calls.
* Theorems: `Verif/Props/Validator.lean`.

  * `C138_accept`: : after any calls a document is accepted exactly if the last text parsed is a schema that accepts it.
  * `C138_reject`: Everything else is an error for validation.
  * `C138_freed`: : when a validator is destroyed, all schemas and contexts it made are freed, and none was freed twice.
  * `C138_fails_result`: **C138 fails**: the result of `Validate` is false for every valid document.
  * `C138_fails_leak`: **C138 fails**: every schema that is parsed leaves the context of its parser behind.
  * `C138_check`: : an input is accepted exactly if its text is a document, the schema is one, the files to include can be read, and the result is valid.
  * `C138_text`: The text of a parser decides: a text that is no document is an error for validation.
  * `C138_kind_partial`: : if the text is a document and the files to include can be read, an input is accepted or there is an error for validation.
  * `C138_fails_kind`: **C138 fails**: a file to include that cannot be read is not an error for validation.
  * `C138_fails_null`: **C138 fails**: a parser that is used after its text could not be parsed dereferences a null pointer, as does one that has had no text.

### C139 The comparison of programs finds exactly the differences

The comparison with which translated exchanges are tested gives 0 exactly if the two programs have the same numbers of rows and columns, the same columns are integers, all bounds and coefficients are the same up to the tolerance, and the matrices are equivalent; otherwise its result says what is different. It does not depend on the order, no program differs from itself, names count unless they are to be ignored, and programs that are the same as a third are the same.

* Status: partial.  Proved: the result is 0 exactly for programs that are the same up to the tolerance; order; reflexivity; what the codes 1000, 1001, 1002, 100 and 200 stand for, and that differences of bounds count once. The code violates the rest: names are never compared; the same code can stand for other differences; being the same is not transitive because of the tolerance.
* Modelled and proved: `ProgDiff` models `differentAgent` on programs with lists of rows and columns; the tolerance is `CoinRelFltEq` over the rational numbers, and the equivalence of matrices is arbitrary. The specification `Same` is stated with `Forall₂`; counting the differences of a zipped list is shown to give 0 exactly if it holds.
* Theorems: `Verif/Props/ProgDiff.lean`.

  * `C139_zero`: : the result is 0 exactly if the programs are the same up to the tolerance.
  * `C139_symm`: : the order of the programs does not matter.
  * `C139_refl`: : no program is different from itself.
  * `C139_size`: Programs of different size give 1000.
  * `C139_kinds`: Programs of the same size whose columns are not integers alike give 1001 if the numbers of integers differ, and else 1002.
  * `C139_matrix`: Programs that differ in nothing else than their matrices give 100, or 200 if these have different numbers of elements.
  * `C139_count`: Every bound and coefficient that is different counts once.
  * `C139_fails_names`: **C139 fails**: names are never compared, whether they are to be ignored or not.
  * `C139_fails_code`: **C139 fails**: the code does not say what is different: two hundred bounds, or the number of elements.
  * `C139_fails_trans`: **C139 fails**: being not different is not transitive.

### C140 Agents find in their tables exactly what they wrote

Whatever other agents and archetypes record, an agent that is read back finds under each title exactly what it recorded at that time, in order: as archetype, as Agent, and for inventories; a prototype finds what it recorded at any time. Different archetypes have different tables, and so have different titles; an agent that is recorded again in the same time step finds its state once; every archetype can record its state.

* Status: partial.  Proved for all records in which each number belongs to one agent and the class Agent uses titles without an underscore, as in the code. The code violates the rest: archetypes whose paths differ in a dash or underscore share tables, as do archetypes one of whose names begins with the other; an agent that is recorded twice in one time step reads everything twice; archetypes whose path has a colon cannot record their state.
* Modelled and proved: `StateTables` models `DbInit::NewDatum` and the queries through `CondInjector` and `PrefixInjector` on a list of rows, with `AgentSpec::Sanitize` from the model of C36. The specification lists what an agent recorded without speaking about tables. The proof shows that the name of an archetype in a table always has an underscore, so that its tables are never those of `Agent` or of inventories; agents are separated by their numbers.
* Theorems: `Verif/Props/StateTables.lean`.

  * `C140_archetype`: : an archetype reads exactly what it recorded under a title at a time.
  * `C140_base_partial`: : the class `Agent` reads exactly what it recorded, under titles as it uses them.
  * `C140_prototype`: : a prototype reads what it recorded, at whatever time.
  * `C140_inventory_partial`: : the inventories that are read are exactly those that were recorded.
  * `C140_titles`: : an archetype has different tables for different titles, none of which is a table of `Agent` or of inventories.
  * `C140_fails_share`: **C140 fails**: archetypes whose paths differ only in a character that tables cannot have share their tables.
  * `C140_fails_titles`: **C140 fails**: an archetype whose name begins with the name of another shares a table with it under another title.
  * `C140_fails_twice`: **C140 fails**: an agent that is recorded twice in one time step reads everything twice.
  * `C140_fails_colon`: **C140 fails**: the archetype of an agent cannot be read from its text if its path has a colon, so that nothing can be recorded.

### C141 Projects of archetypes keep what they have and build what was added

Beginning in a directory without a project, cycstub enters any archetypes of one library one after the other: every command is done, the library builds all of them, their files are what the stubs become, and no other file is touched. Archetypes of another path or library are refused, and a command that is not done changes nothing. No command destroys files that are there, and no archetype is entered twice.

* Status: partial.  Proved for libraries with a name, whatever fromcapcase and the stubs are. The code violates the rest: an archetype that is entered again is listed twice and its sources are overwritten; the tests of an archetype a are overwritten by an archetype a_tests; a project of a library without a name takes no further archetype, since its first line then has two double colons.
* Modelled and proved: `Stub` models `cycstub` on a project with the first line of `CMakeLists.txt`, the lines of `src/CMakeLists.txt` and its files; `fromcapcase` and the renaming of stubs are arbitrary. Splitting at one and at two colons and stripping are modelled, and the proof shows that the line a new project gets is read back as its specification. The specification says what parts of a specification are; induction over the commands gives the lines and files at the end. The disagreements (an archetype entered again loses its sources and is listed twice; the archetype `a_tests` takes the tests of `a`; a library without a name cannot be extended) are proved with concrete projects.
* Theorems: `Verif/Props/Stub.lean`.

  * `C141_insert`: C141. A line is entered directly below the first line that has the text, and nothing else changes.
  * `C141_insert_none`: C141. Without a line that has the text, nothing is entered.
  * `C141_unchanged`: C141. A command that is not done changes nothing.
  * `C141_read`: C141. What a project has is read back: its path, library and first archetype.
  * `C141_library`: C141. A project of one library takes no archetype of another: of all specifications only those of its path and library are done.
  * `C141_all`: C141. Beginning in a directory without a project, any archetypes of one library are entered one after the other: every command is done, the library builds all of them, the newest first, all their files are there, and no other file is touched.
  * `C141_files`: C141. After a command that is done, the files of the archetype are what its stubs become.
  * `C141_keeps_false`: C141. The code violates it: an archetype that is entered again loses its sources.
  * `C141_tests_false`: C141. The code violates it even for new archetypes: the tests of `a` are lost to the archetype `a_tests`.
  * `C141_keeps_partial`: C141. Partial: files that are not those of the archetype are kept.
  * `C141_apart_partial`: C141. Partial: the files of two archetypes are apart unless the names are the same or one is that of the tests of the other.
  * `C141_once_false`: C141. The code enters an archetype again that is there: the library then lists it twice.
  * `C141_noname_false`: C141. Without a name for the library, a project begins, but takes no further archetype: its first line cannot be read.

## Disagreements between the code and the properties

Each is a theorem about the model with a concrete witness; the code is described by the cited lines of the model.

* C01 ResBuf quantity is the sum of its contents: `C01_fails_duplicate`; `C01_fails_mixed`.
* C02 ResBuf never holds more than its capacity: `C02_fails`.
* C04 A failed ResBuf call leaves the buffer unchanged: `C04_fails_pop`; `C04_fails_push`.
* C05 ResBuf never holds the same object twice: `C05_fails`.
* C06 Package fill masses respect the package limits and never exceed the material: `C06_zero_min_may_loop`.
* C07 A transport unit never ships more packages than exist nor a partial unit: `C07_fails_zero_min`.
* C08 Resource quantity is conserved by split and merge: `C08_fails_self`; `C08_packageExtract_negative`; `C08_fails_self`.
* C09 Nuclide-by-nuclide conservation in Material: `C09_fails_blank`; `C09_fails_threshold`.
* C10 Resource state ids are unique and the recorded genealogy is acyclic: `C10_fails_clone`.
* C11 Changing a package checks the limits of the package being changed to: `C11_fails_material`.
* C12 Greedy solver respects every node-group capacity: `C12_fails_request`; `C12_fails_zero`.
* C13 Greedy solver never over-fills a request group or a node: `C13_fails_zero`.
* C18 Every trade is executed exactly once and gets its own transaction id: `C18_fails_foreign`.
* C20 Mutual requests: meeting any one of them meets the group's demand: `C20_fails`.
* C21 A bid portfolio has one bidder and only positive offers: `C21_fails_bidder`.
* C22 Scheduled builds happen exactly once, at their time step: `C22_fails_parent`.
* C23 Scheduled decommissionings happen exactly once: `C23_fails_lost`; `C23_fails_twice`.
* C24 Time-step phases run in a fixed order for every registered listener: `C24_fails_skip`; `C24_fails_twice`.
* C25 The agent tree stays consistent: `C25_fails_subtree`; `C25_fails_leak`; `C25_fails_rebuild`.
* C26 Agent lifetime and exit time: `C26_fails_zero`.
* C27 Lifetime cannot be changed after the agent entered, except by force: `C27_fails_force`.
* C28 Context counts equal the number of live agents: `C28_fails`.
* C29 Every recorded datum reaches every backend exactly once and in order: `C29_fails_zero`; `C29_fails_dump_count`; `C29_fails_dump_count_small`; `C29_fails_unrecorded`; `C29_fails_interleaved`; `C29_fails_flush`; `C29_fails_name`.
* C30 Filtering a query with no conditions returns the whole table: `C30_fails_empty`; `C30_fails_injector`; `C30_fails_unknown`; `C30_fails_prefix`.
* C31 Variable-length values read back as written: `C31_fails`; `C31_fails_strings`; `C31_fails_nul`; `C31_fails_memory`.
* C32 Restart restores exactly the agents alive at the snapshot: `C32_fails_now`; `C32_fails_later`; `C32_fails_decom`; `C32_fails_parent`; `C32_fails_orphan`.
* C33 The initial agent hierarchy is built parents first, for every input: `C33_fails_missing`; `C33_fails_cycle`; `C33_fails_duplicate`.
* C34 Commodity priorities given in the input govern the solver: `C34_fails`; `C34_fails_order`.
* C35 Unprioritised commodities rank after all prioritised ones: `C35_fails`.
* C36 Agent specs round-trip through their string form: `C36_fails_alias`; `C36_fails_roundtrip`; `C36_fails_sanitize`.
* C37 The Python memory backend answers from data no older than the registry allows: `C37_fails_stale`; `C37_fails_late`; `C37_fails_fields`; `C37_fails_lost`.
* C38 Compiled query conditions mean their conjunction: `C38_fails_empty`; `C38_fails_val`; `C38_fails_shared`; `C38_fails_collision`.
* C39 The server always resumes after unpause: `C39_fails_overtake`; `C39_fails_queued`; `C39_fails_double`; `C39_fails_shutdown`.
* C40 Preprocessor types round-trip through text: `C40_fails_buffer`; `C40_fails_nested`; `C40_fails_blank`; `C40_fails_tail`; `C40_fails_typedef`.
* C41 Shape annotations are padded to the type: `C41_fails_short`.
* C42 UUID literals generated by the preprocessor denote the given UUID: `C42_fails`.
* C43 Every state variable snapshotted by generated code is restored by it: `C43_fails_resmap`; `C43_fails_tracker`; `C43_fails_container`; `C43_fails_alias`; `C43_fails_clash`; `C43_fails_shape`; `C43_fails_capacity`.
* C44 Class hierarchy queries: `C44_cycle`; `C44_fails_doc`; `C44_fails_indirect`.
* C46 Enrichment balances mass and fissile mass: `C46_fails_depleted`; `C46_fails_equal`.
* C47 Buy policy never orders more than fits: `C47_fails_shared`; `C47_fails_size`; `C47_fails_overflow`; `C47_fails_null`.
* C48 Sell policy ships everything it takes out of the buffer: `C48_fails_packages`; `C48_fails_small`.
* C50 Linear-programme solutions respect the exchange constraints: `C50_fails_request`; `C50_fails_bid`.
* C51 Commodity producers: the cheapest adequate building order: `C51_fails_none`; `C51_fails_capacity`; `C51_fails_truncate`.
* C52 Commodity recipe context lookups are consistent: `C52_fails_unknown`; `C52_fails_stale`; `C52_fails_update`; `C52_fails_empty`; `C52_fails_equal`.
* C53 Total inventory tracker leaves no more space than its cap: `C53_fails_init`.
* C54 Untracked resources record nothing: `C54_fails_clone`; `C54_fails_product`.
* C62 Trades resulting from an exchange respect quantities and constraints: `C62_fails_request`.
* C67 Family queries: `C67_fails_print`.
* C68 Cumulative cap of the buy policy bounds what it receives in a cycle: `C68_fails_bulk`.
* C69 Dormant periods of the buy policy follow the sampled lengths: `C69_fails_reset`; `C69_fails_negative`.
* C70 Bids of the sell policy stay within buffer, throughput, request and package limits: `C70_fails_empty`.
* C71 Sell policy sends no more packages than its transport unit admits: `C71_fails_plain`.
* C72 The function factory builds the function its parameters describe: `C72_fails_short`; `C72_fails_word`.
* C73 Commodity producers keep the information they are given: `C73_fails_query`; `C73_fails_default`.
* C74 The supply and demand manager evaluates the registered demand: `C74_fails_unknown`; `C74_fails_lost`.
* C75 Registering tables adds to what is stored and is answered: `C75_fails_all`; `C75_fails_all_deregister`; `C75_fails_answer`.
* C76 Decay of a composition depends only on its origin and the total time: `C76_fails_secs`; `C76_fails_unknown`.
* C77 Materials decay for exactly the time that passes: `C77_fails_early`; `C77_fails_back`; `C77_fails_absorb`.
* C78 Compositions are recorded once, as mass fractions: `C78_fails_blank`.
* C79 Explicit inventory tables show what agents hold: `C79_fails_blank`; `C79_fails_mixed`; `C79_fails_null`.
* C80 Material queries agree with the composition and with extraction: `C80_fails_empty`.
* C81 Uranium assays and the quantity of uranium: `C81_fails_other`.
* C82 A resource map knows its quantity and survives restarts: `C82_fails_stale`; `C82_fails_reference`; `C82_fails_null`; `C82_fails_shared`.
* C83 Discovery finds exactly the archetypes a library exports: `C83_fails_end`; `C83_fails_begin`; `C83_fails_recursive`.
* C86 Positions are written as ISO 6709 degrees, minutes and seconds: `C86_fails_sixty`; `C86_fails_pad`; `C86_fails_zero`.
* C87 A Source offers and supplies at most its capacity: `C87_fails_offer`; `C87_fails_zero`.
* C88 Sinks and KFacilities request what they can accept and keep what they get: `C88_fails_full`; `C88_fails_twice`.
* C89 Predators and prey live, hunt, give birth and die as documented: `C89_fails_success`; `C89_fails_carry`.
* C90 LMatrix computes sums, products and powers of matrices: `C90_fails_wide`; `C90_fails_tall`; `C90_fails_power`.
* C91 UniformTaylor solves dx/dt = A x to the requested accuracy: `C91_fails_general`.
* C92 Decayer tracks the decay chains and solves the decay equations: `C92_fails_short`; `C92_fails_shared`; `C92_fails_stale`.
* C93 The random numbers keep their documented ranges and depend on the seed alone: `C93_fails_uniform_int`; `C93_fails_make_normal`; `C93_fails_limits`; `C93_fails_parameters`; `C93_fails_trials`.
* C94 The registries answer what was registered, and a restart restores them: `C94_fails_overwrite`; `C94_fails_reserved`; `C94_fails_default_limit`.
* C95 The general information about a simulation survives recording, loading and restarts: `C95_fails_tolerance`; `C95_fails_random`; `C95_fails_month`; `C95_fails_branch`; `C95_fails_duration`.
* C96 Queries of the input file return what the file says: `C96_fails_twice`; `C96_fails_text`; `C96_fails_recipe`.
* C97 The XML made from JSON input says the same: `C97_fails_precision`; `C97_fails_escape`; `C97_fails_root`; `C97_fails_null`; `C97_fails_empty`; `C97_fails_mixed`.
* C98 The JSON made from XML input says the same, and converting back gives the same elements: `C98_fails_text`; `C98_fails_comment`; `C98_fails_empty`.
* C99 Every archetype of the input file is in the master schema and found under its alias: `C99_fails_twice`; `C99_fails_alias`; `C99_fails_absent`; `C99_fails_format`.
* C100 The initial agents are exactly those that the input file lists: `C100_fails`.
* C101 Every spelling of a nuclide gives its one identifier: `C101_fails_mcnp`; `C101_fails_small`; `C101_fails_heavy_hydrogen`; `C101_fails_keys`; `C101_fails_state`; `C101_fails_heavy`; `C101_fails_texts`; `C101_fails_overflow`.
* C102 Warnings and log messages appear exactly when they are enabled: `C102_fails_wrap`; `C102_fails_no_mem`; `C102_fails_debug1`; `C102_fails_verb`.
* C103 The command line runs what is asked for and keeps all its data: `C103_fails_restart_lost`; `C103_fails_restart_no_input`; `C103_fails_schema_path`; `C103_fails_no_catch`; `C103_fails_information`; `C103_fails_uncaught`; `C103_fails_rng_print`.
* C104 Snapshots and restarts keep the inventories: `C104_fails_package`; `C104_fails_decay_time`; `C104_fails_emptied`; `C104_fails_untracked`; `C104_fails_again`.
* C105 The solver the input file asks for solves the exchanges: `C105_fails_restart`; `C105_fails_preconditioner`; `C105_fails_exclusive`.
* C106 Data written to an SQLite file are read back as written: `C106_fails_nan`; `C106_fails_nul`; `C106_fails_order`; `C106_fails_type`; `C106_fails_cast`; `C106_fails_retry`.
* C107 Ticks and tocks in several threads record what one thread records: `C107_fails_datum`; `C107_fails_count`; `C107_fails_mixed`; `C107_fails_ids`; `C107_fails_order`; `C107_fails_throw`.
* C108 Sums of amounts are accurate in floating-point arithmetic whatever the number of terms: `C108_fails_infinite`; `C108_fails_infinities`; `C108_fails_range`; `C108_fails_nan`.
* C109 Rows written to an HDF5 table are read back as recorded: `C109_fails_short`; `C109_fails_inner`; `C109_fails_padding`; `C109_fails_shape`; `C109_fails_nul`; `C109_fails_tables`.
* C110 Values of variable length survive in an HDF5 file that is closed and opened again: `C110_fails_variation`; `C110_fails_index`; `C110_fails_lost`; `C110_fails_handle`; `C110_fails_keys`.
* C111 The forms in which other codes write nuclides lead back to the nuclide: `C111_fails_mcnp`; `C111_fails_element`; `C111_fails_fluka`; `C111_fails_state`; `C111_fails_ensdf`.
* C112 JSON text is read as what it means, and what is written is read back: `C112_fails_real`; `C112_fails_type`; `C112_fails_nul`; `C112_fails_inf`; `C112_fails_point`; `C112_fails_lax`; `C112_fails_tail`; `C112_fails_big`; `C112_fails_name`; `C112_fails_lone`.
* C113 Input that the generated schema admits is read by the generated code, as written: `C113_fails_bool`; `C113_fails_empty`; `C113_fails_vecmap`; `C113_fails_pairpair`; `C113_fails_local`; `C113_fails_default`; `C113_fails_nested`; `C113_fails_temp`; `C113_fails_internal`.
* C114 The second pass of the preprocessor finds the classes, parents and state variables of a file: `C114_fails_global`; `C114_fails_leading`; `C114_fails_circle`; `C114_fails_self`; `C114_fails_anonymous`; `C114_fails_alias`; `C114_fails_clash`; `C114_fails_heads`.
* C115 The preprocessor turns the type of a state variable into its canonical type: `C115_fails_qualified`; `C115_fails_enclosing`; `C115_fails_nearer`; `C115_fails_returns`; `C115_fails_arity`; `C115_fails_template_alias`; `C115_fails_namespace_alias`; `C115_fails_colons`.
* C116 The preprocessor cuts the text of a file into its statements and recognises them: `C116_fails_brace`; `C116_fails_access`; `C116_fails_tail`; `C116_fails_initial`; `C116_fails_lines`; `C116_fails_misspelled`; `C116_fails_prefix`; `C116_fails_pragma`; `C116_fails_using`.
* C117 The third pass puts the methods in the place of their directives and keeps the rest of the file: `C117_fails_default`; `C117_fails_blank`; `C117_fails_brace`; `C117_fails_tail`; `C117_fails_misspelled`.
* C118 Line directives make a compiler report lines of the original file: `C118_fails_comment`; `C118_fails_form_feed`; `C118_fails_end`; `C118_fails_name`.
* C119 Agents written in Python read from the input file what the generated C++ reads: `C119_fails_nested`; `C119_fails_map`; `C119_fails_blob`; `C119_fails_nuclide`; `C119_fails_null`.
* C120 Agents written in Python keep their state variables through copies and restarts: `C120_fails_subclass`; `C120_fails_own`; `C120_fails_own_witness`; `C120_fails_order`; `C120_fails_pair`; `C120_fails_annotations`; `C120_fails_rows`.
* C121 Inventories of agents written in Python survive snapshots, copies and restarts: `C121_negative`; `C121_fails_snapshot`; `C121_fails_recorded`; `C121_fails_lost`; `C121_fails_map`; `C121_fails_restart`; `C121_fails_init`; `C121_fails_init_map`; `C121_fails_sink`; `C121_fails_clone`.
* C122 Portfolios of agents written in Python become the C++ portfolios they describe: `C122_fails_forms`; `C122_fails_forms_error`; `C122_fails_names_index`; `C122_fails_names_preference`; `C122_fails_plain_preference`; `C122_fails_plain_constraints`; `C122_fails_dict`; `C122_fails_empty`; `C122_fails_kind`; `C122_fails_none`; `C122_fails_preference_value`; `C122_fails_preference`; `C122_fails_pair`; `C122_fails_missing`; `C122_fails_bid_kind`.
* C123 Agents written in Python see the preferences and requests as they are: `C123_fails_cpp`; `C123_fails_cpp_value`; `C123_fails_wrappers`; `C123_fails_inplace`; `C123_fails_reuse`; `C123_fails_commodity`.
* C125 Agents written in Python serve their trades and receive what is sent: `C125_fails_shipments`; `C125_fails_unchecked`; `C125_fails_kept`; `C125_fails_room`; `C125_fails_capacity`; `C125_fails_shut`.
* C126 JSON values in Python hold what they are given and behave like lists and dicts: `C126_fails_modern`; `C126_fails_nul`; `C126_fails_int`; `C126_fails_unread`; `C126_fails_slice`; `C126_fails_append`; `C126_fails_insert`; `C126_fails_in`; `C126_fails_pop`; `C126_fails_read`; `C126_fails_assign`; `C126_fails_popkey`; `C126_fails_file`; `C126_fails_parse`; `C126_fails_str`.
* C127 A mock simulation has the agents that were asked for, in the steps that were asked for: `C127_fails_capacity`; `C127_fails_dummy`; `C127_fails_zero`; `C127_fails_start`; `C127_fails_tested`.
* C128 The mathematical programming solver finds the cheapest admissible matching: `C128_fails_greedy`.
* C129 Containers for values of any type behave as variables and do not lose memory: `C129_fails_leak`; `C129_fails_chars`; `C129_fails_alias`.
* C130 Data recorded and queried from Python arrive as they were given: `C130_fails_names`; `C130_fails_half`; `C130_fails_full`; `C130_fails_tables`.
* C131 Indented JSON has one layout and is read back as the value written: `C131_fails_str`; `C131_fails_real`.
* C132 Agents are made from the module their spec names, and modules are closed: `C132_fails_colon`; `C132_fails_class`; `C132_fails_open`; `C132_fails_discovery`; `C132_fails_python`; `C132_fails_close`; `C132_fails_discover`.
* C133 Agents in Python live as long as their C++ agents and are always the same object: `C133_fails_double`; `C133_fails_same`; `C133_fails_stale`; `C133_fails_clear`; `C133_fails_use`; `C133_fails_orphan`; `C133_fails_annotations`.
* C134 Running simulations from Python does exactly what the arguments say: `C134_fails_input`; `C134_fails_created`; `C134_fails_extension`; `C134_fails_order`; `C134_fails_default`; `C134_fails_del`; `C134_fails_reload`.
* C135 Input files in Python mean the simulation they define, and the format decides how an input is read: `C135_fails_nul`; `C135_fails_error`; `C135_fails_back`; `C135_fails_format`; `C135_fails_path`; `C135_fails_raw`.
* C136 Repeating actions are done once in every step, and the interpreter lives from the first start to the exit: `C136_fails_unbound`; `C136_fails_params`; `C136_fails_text`; `C136_fails_monitor`; `C136_fails_rest`; `C136_fails_return`; `C136_fails_stop`; `C136_fails_again`.
* C137 The environment says once and for all where Cyclus is installed, and values and paths are read without loss: `C137_fails_relative`; `C137_fails_message`; `C137_fails_flat`; `C137_fails_trailing`; `C137_fails_base`; `C137_fails_set`.
* C138 Inputs are accepted exactly if the schema accepts them, and validators free what they make: `C138_fails_result`; `C138_fails_leak`; `C138_fails_kind`; `C138_fails_null`.
* C139 The comparison of programs finds exactly the differences: `C139_fails_names`; `C139_fails_code`; `C139_fails_trans`.
* C140 Agents find in their tables exactly what they wrote: `C140_fails_share`; `C140_fails_titles`; `C140_fails_twice`; `C140_fails_colon`.

## Axioms of each theorem

No axioms: `Commod.C74_fails_unknown`, `CycppScan.C114_close`, `CycppScan.C114_unknown`, `EnvPaths.C137_empty`, `EnvPaths.C137_once`, `EnvPaths.C137_set_partial`, `Load.C36_fails_alias`, `PyDb.Props.C130_fails_tables`, `PyDb.Props.C130_tables`, `PyJson.Props.C126_fails_str`, `PyLife.C133_annotations_partial`, `PyLife.C133_fails_annotations`, `PyLoop.C136_fails_stop`, `PyPrefs.Props.C123_fails_commodity`, `Rec.C29_fails_flush`, `RecipeCtx.C52_fails_empty`, `RecipeCtx.C52_fails_equal`, `RecipeCtx.C52_fails_update`, `Validator.C138_fails_kind`, `Validator.C138_fails_null`.

`Classical.choice`, `Quot.sound`, `propext`: `Agents.C26_exit`, `Agents.C26_fails_zero`, `Agents.C26_forever`, `Agents.C26_not_before`, `Agents.C67_family`, `AnyHold.Props.C129_fails_alias`, `AnyHold.Props.C129_freed_partial`, `AnyHold.Props.C129_memory`, `AnyHold.Props.C129_values`, `Archetypes.C87_bids_partial`, `Archetypes.C87_fails_zero`, `Archetypes.C87_trades`, `Archetypes.C87_unknown`, `Archetypes.C88_accept_partial`, `Archetypes.C88_fails_full`, `Archetypes.C88_fails_twice`, `Archetypes.C88_power`, `Archetypes.C88_requests`, `Archetypes.C88_step`, `Archetypes.C89_fails_carry`, `Archetypes.C89_fails_success`, `Archetypes.C89_hunt_partial`, `Archetypes.C89_life`, `Archetypes.C89_prey`, `Archetypes.C89_prey_tock`, `Archetypes.C89_requests`, `ChangePackage.C11_fails_material`, `Cli.C103_errors_partial`, `Cli.C103_fails_restart_lost`, `Cli.C103_restart_partial`, `Cli.C103_run_partial`, `Commod.C51_cheapest_partial`, `Commod.C51_cover_partial`, `Commod.C51_fails_capacity`, `Commod.C51_fails_none`, `Commod.C51_fails_truncate`, `Commod.C51_orders`, `Commod.C51_register`, `Commod.C51_supply`, `Commod.C51_total`, `Commod.C51_unregister`, `CompMath.C49_add_sub`, `CompMath.C49_atom_mass`, `CompMath.C49_create`, `CompMath.C49_normalize`, `CompMath.C49_threshold`, `CompMath.C55_almostEq`, `Conf.C105.C105_choice_partial`, `Conf.C105.C105_fails_exclusive`, `Conf.C105.C105_fails_restart`, `Conf.C105.C105_unknown`, `Convert.C97_convert_partial`, `Convert.C97_fails_empty`, `Convert.C97_fails_escape`, `Convert.C97_fails_mixed`, `Convert.C97_fails_null`, `Convert.C97_fails_precision`, `Convert.C97_fails_root`, `Convert.C97_numbers`, `Convert.C98_back_partial`, `Convert.C98_fails_comment`, `Convert.C98_fails_empty`, `Convert.C98_fails_text`, `Convert.C98_values`, `Cycpp.C40_fails_blank`, `Cycpp.C40_fails_buffer`, `Cycpp.C40_fails_nested`, `Cycpp.C40_fails_tail`, `Cycpp.C40_fails_typedef`, `Cycpp.C40_join_partial`, `Cycpp.C40_roundtrip_general`, `Cycpp.C40_roundtrip_partial`, `Cycpp.C40_split`, `Cycpp.C40_total`, `Cycpp.C41_fails_short`, `Cycpp.C41_partial`, `Cycpp.C42_fails`, `Cycpp.C42_partial`, `Cycpp.C42_text`, `Cycpp.C43_fails_alias`, `Cycpp.C43_fails_capacity`, `Cycpp.C43_fails_container`, `Cycpp.C43_fails_resmap`, `Cycpp.C43_fails_shape`, `Cycpp.C43_fails_tracker`, `Cycpp.C43_generated_partial`, `Cycpp.C43_restore_partial`, `Cycpp.C43_shapes_partial`, `Cycpp.C44_ancestors`, `Cycpp.C44_intersection`, `CycppGen.C117_default_partial`, `CycppGen.C117_directive`, `CycppGen.C117_fails_blank`, `CycppGen.C117_fails_brace`, `CycppGen.C117_fails_default`, `CycppGen.C117_fails_misspelled`, `CycppGen.C117_fails_tail`, `CycppGen.C117_file`, `CycppGen.C117_order`, `CycppGen.C117_owner`, `CycppGen.C117_pieces`, `CycppGen.C117_unchanged`, `CycppGen.C117_unchanged_cut`, `CycppGen.C117_var`, `CycppGen.C117_words`, `CycppLine.C118_fails_comment`, `CycppLine.C118_fails_end`, `CycppLine.C118_fails_form_feed`, `CycppLine.C118_fails_name`, `CycppLine.C118_kept`, `CycppLine.C118_matched`, `CycppLine.C118_numbers`, `CycppLine.C118_unchanged`, `CycppScan.C114_alias_partial`, `CycppScan.C114_ancestors`, `CycppScan.C114_classes`, `CycppScan.C114_fails_alias`, `CycppScan.C114_fails_anonymous`, `CycppScan.C114_fails_global`, `CycppScan.C114_fails_heads`, `CycppScan.C114_fails_self`, `CycppScan.C114_returns`, `CycppScan.C114_scopes`, `CycppScan.C114_vars_partial`, `CycppText.C116_classes_partial`, `CycppText.C116_fails_access`, `CycppText.C116_fails_brace`, `CycppText.C116_fails_initial`, `CycppText.C116_fails_lines`, `CycppText.C116_fails_misspelled`, `CycppText.C116_fails_pragma`, `CycppText.C116_fails_prefix`, `CycppText.C116_fails_tail`, `CycppText.C116_fails_using`, `CycppText.C116_file_partial`, `CycppText.C116_quiet`, `CycppText.C116_says_partial`, `CycppType.C115_alias`, `CycppType.C115_alias_template`, `CycppType.C115_canonical`, `CycppType.C115_fails_arity`, `CycppType.C115_fails_colons`, `CycppType.C115_fails_namespace_alias`, `CycppType.C115_fails_nearer`, `CycppType.C115_fails_qualified`, `CycppType.C115_fails_template_alias`, `CycppType.C115_returns_partial`, `CycppType.C115_sound`, `CycppType.C115_text`, `CycppType.C115_using_partial`, `CycppType.C115_using_template_partial`, `Decay.C76_fails_secs`, `Decay.C76_shared`, `Decay.C76_value_partial`, `Decay.C77_call`, `Decay.C77_content_partial`, `Decay.C77_extract`, `Decay.C77_fails_absorb`, `Decay.C77_fails_back`, `Decay.C77_fails_early`, `Decay.C77_never`, `Decay.C78_fails_blank`, `Decay.C78_fractions_partial`, `Decay.C78_once`, `Decayer.C92_construct`, `Decayer.C92_decay_partial`, `Decayer.C92_ends`, `Decayer.C92_fails_shared`, `Decayer.C92_fails_short`, `Decayer.C92_fails_stale`, `Decayer.C92_result`, `Decayer.C92_tables`, `Diag.C102_fails_wrap`, `Diag.C102_verbosity`, `Diag.C102_warnings`, `Discovery.C83_fails_end`, `Discovery.C83_fails_recursive`, `Discovery.C84_data`, `Discovery.C84_module`, `Discovery.C84_unset`, `Dre.C17_arcs`, `Dre.C17_arcs_nodup`, `Dre.C17_back`, `Dre.C17_distinct`, `Dre.C17_error`, `Dre.C17_success`, `Dre.C18_ids`, `Dre.C19_add`, `Dre.C19_qty`, `Dre.C19_qty_plain`, `Dre.C19_requester`, `Dre.C20_coefficient`, `Dre.C20_equal_partial`, `Dre.C20_fails`, `Dre.C21_add`, `Dre.C21_bidder_partial`, `Dre.C21_bids`, `Dre.C61_consistent`, `Dre.C61_request_groups`, `Dre.C61_supply_groups`, `Dre.C61_unit_capacities`, `Dre.C62_fails_request`, `Dre.C62_trades`, `Dre.C63_deterministic`, `Dre.C63_order`, `Dre.C64_preferences`, `DynMod.C132_again`, `DynMod.C132_close_partial`, `DynMod.C132_closed`, `DynMod.C132_discover_partial`, `DynMod.C132_exists`, `DynMod.C132_fails_class`, `DynMod.C132_fails_close`, `DynMod.C132_fails_colon`, `DynMod.C132_fails_discover`, `DynMod.C132_fails_discovery`, `DynMod.C132_fails_open`, `DynMod.C132_fails_python`, `DynMod.C132_makable_partial`, `DynMod.C132_make_partial`, `DynMod.C132_open_partial`, `DynMod.C132_python_partial`, `DynMod.C132_registered`, `Enrich.C46_balance`, `Enrich.C46_fails_depleted`, `Enrich.C46_fails_equal`, `Enrich.C46_range`, `Enrich.C46_swu`, `Enrich.C46_unique`, `EnvPaths.C137_fails_flat`, `EnvPaths.C137_fails_message`, `EnvPaths.C137_fails_set`, `EnvPaths.C137_fails_trailing`, `EnvPaths.C137_milps`, `EnvPaths.C137_schema`, `Exchange.C12_capacities_partial`, `Exchange.C12_fails_request`, `Exchange.C12_fails_zero`, `Exchange.C13_fails_zero`, `Exchange.C13_group`, `Exchange.C13_node_partial`, `Exchange.C13_positive`, `Exchange.C14_arc_value`, `Exchange.C14_exclusive`, `Exchange.C15_objective`, `Exchange.C16_condition`, `Exchange.C16_reverse`, `Exchange.C57_no_exception`, `Exchange.C58_pseudo_cost`, `Exchange.C59_maximal`, `Exchange.C60_preference`, `Fn.C45_accepted`, `Fn.C45_continuous`, `Fn.C45_first`, `Fn.C45_joint`, `Fn.C45_shift`, `Fn.C45_value`, `Fn.C45_zero`, `Fn.C72_factory`, `Fn.C72_fails_short`, `Fn.C72_fails_word`, `Hdf5Rows.C109.C109_fails_padding`, `Hdf5Rows.C109.C109_fails_shape`, `Hdf5Rows.C109.C109_fails_short`, `Hdf5Rows.C109.C109_fails_tables`, `Hdf5Rows.C109.C109_inside`, `Hdf5Rows.C109.C109_roundtrip_partial`, `Hdf5Rows.C109.C109_seen`, `Hdf5Rows.C109.C109_tables`, `Infile.C96_elements`, `Infile.C96_fails_text`, `Infile.C96_recipe`, `Infile.C96_string`, `InfileGen.C113_alias`, `InfileGen.C113_basic`, `InfileGen.C113_class_partial`, `InfileGen.C113_fails_bool`, `InfileGen.C113_fails_default`, `InfileGen.C113_fails_empty`, `InfileGen.C113_fails_local`, `InfileGen.C113_fails_nested`, `InfileGen.C113_fails_pairpair`, `InfileGen.C113_fails_temp`, `InfileGen.C113_fails_vecmap`, `InfileGen.C113_reads_partial`, `InfileGen.C113_schema`, `InfileGen.C113_schema_class`, `InfileGen.C113_schema_total`, `InfileGen.C113_unique`, `Info.C95_fails_branch`, `Info.C95_fails_month`, `Info.C95_fails_random`, `Info.C95_fails_tolerance`, `Info.C95_initialise`, `Info.C95_input_partial`, `Info.C95_load_partial`, `Info.C95_restarts`, `Info.C95_rows`, `Init.C32_agents`, `Init.C32_counters`, `Init.C32_fails_orphan`, `Init.C32_restart_partial`, `Init.C32_schedules_partial`, `Init.C33_fails_cycle`, `Init.C33_fails_duplicate`, `Init.C33_fails_missing`, `Init.C33_flat_partial`, `Initial.C100_agents`, `Initial.C100_refuses`, `Initial.C100_unknown`, `Inventory.C79_fails_blank`, `Inventory.C79_fails_mixed`, `Inventory.C79_fails_null`, `Inventory.C79_inventory`, `Inventory.C79_off`, `Inventory.C79_tock_partial`, `JsonText.C112_big_partial`, `JsonText.C112_custom_partial`, `JsonText.C112_fails_big`, `JsonText.C112_fails_inf`, `JsonText.C112_fails_lax`, `JsonText.C112_fails_lone`, `JsonText.C112_fails_name`, `JsonText.C112_fails_nul`, `JsonText.C112_fails_point`, `JsonText.C112_fails_real`, `JsonText.C112_fails_tail`, `JsonText.C112_fails_type`, `JsonText.C112_fast_partial`, `JsonText.C112_last`, `JsonText.C112_ordered`, `JsonText.C112_reads_partial`, `JsonText.C112_same_partial`, `JsonText.C112_terminates`, `Kahan.C108.C108_accurate`, `Kahan.C108.C108_callers`, `Kahan.C108.C108_fails_infinite`, `Kahan.C108.C108_fails_infinities`, `Kahan.C108.C108_fails_nan`, `Kahan.C108.C108_fails_range`, `Kahan.C108.C108_order`, `Kahan.C108.C108_relative`, `Kahan.C108.C108_whole`, `LMat.C90_elements`, `LMat.C90_fails_power`, `LMat.C90_fails_wide`, `LMat.C90_power_partial`, `LMat.C90_product_partial`, `LMat.C90_sums`, `LMat.C91_accuracy_partial`, `LMat.C91_fails_general`, `LMat.C91_series`, `LMat.C91_sign_partial`, `LMat.C91_size`, `LMat.C91_total`, `Load.C34_fails`, `Load.C34_fails_order`, `Load.C34_partial`, `Load.C35_fails`, `Load.C35_partial`, `Load.C36_fails_sanitize`, `MatQuery.C80_amount`, `MatQuery.C80_atom`, `MatQuery.C80_atomset`, `MatQuery.C80_extract`, `MatQuery.C80_fails_empty`, `MatQuery.C80_mass`, `MatQuery.C80_moles`, `MatQuery.C80_set`, `MatQuery.C80_sum`, `MatQuery.C81_atom`, `MatQuery.C81_convert`, `MatQuery.C81_fails_other`, `MatQuery.C81_mass`, `MatQuery.C81_qty_partial`, `Material.C08_fails_self`, `Material.C08_material_calls`, `Material.C08_material_conserved`, `Material.C08_packageExtract_calls`, `Material.C08_packageExtract_negative`, `Material.C09_fails_blank`, `Material.C09_fails_threshold`, `Material.C09_nuclides_conserved_partial`, `MemBack.C37_fails_fields`, `MemBack.C37_fails_late`, `MemBack.C37_fails_lost`, `MemBack.C37_fails_stale`, `MemBack.C37_fallback`, `MemBack.C37_history_conds_partial`, `MemBack.C37_history_partial`, `MemBack.C37_mirror_partial`, `MemBack.C38_bound`, `MemBack.C38_conjunction_partial`, `MemBack.C38_fails_collision`, `MemBack.C38_fails_empty`, `MemBack.C38_fails_shared`, `MemBack.C38_fails_val`, `MemBack.C38_hit`, `MemBack.C38_raises`, `MemBack.C38_shared_partial`, `MemBack.C75_request`, `MockSim.Props.C127_configuration`, `MockSim.Props.C127_dummy_partial`, `MockSim.Props.C127_fails_capacity`, `MockSim.Props.C127_fails_dummy`, `MockSim.Props.C127_fails_start`, `MockSim.Props.C127_fails_tested`, `MockSim.Props.C127_fails_zero`, `MockSim.Props.C127_lives_partial`, `MockSim.Props.C127_names`, `MockSim.Props.C127_past`, `MockSim.Props.C127_prototype_partial`, `Nuc.C101_back`, `Nuc.C101_back_zzllaaam_partial`, `Nuc.C101_digits`, `Nuc.C101_fails_heavy`, `Nuc.C101_fails_state`, `Nuc.C101_fixed_partial`, `Nuc.C101_isnuclide_text`, `Nuc.C101_mcnp_partial`, `Nuc.C101_names`, `Nuc.C101_numbers`, `Nuc.C101_refuses`, `Nuc.C101_zzllaaam_partial`, `Nuc.C111_element`, `Nuc.C111_ensdf`, `Nuc.C111_fluka_partial`, `Nuc.C111_mcnp_partial`, `Nuc.C111_numbers`, `Nuc.C111_state_partial`, `Nuc.C111_texts`, `Nuc.C111_texts_none`, `Nuc.C111_texts_read`, `Package.C06_deterministic_succeeds`, `Package.C06_fill_masses`, `Package.C06_terminates`, `Package.C06_zero_min_may_loop`, `Par.C107.C107_critical_partial`, `Par.C107.C107_one_thread`, `Par.C107.C107_same_data`, `Policy.C47_amount`, `Policy.C47_bound`, `Policy.C47_fails_overflow`, `Policy.C47_fails_shared`, `Policy.C47_fails_size`, `Policy.C47_fits`, `Policy.C47_portfolio`, `Policy.C53_buffer`, `Policy.C53_capacity`, `Policy.C53_fill`, `Policy.C53_init`, `Policy.C53_space`, `Policy.C68_cap`, `Policy.C68_fails_bulk`, `Policy.C68_rest`, `Policy.C69_fails_negative`, `Policy.C69_fails_reset`, `Policy.C69_periods`, `Policy.C69_silent`, `Position.C85_distance`, `Position.C85_metric`, `Position.C85_range`, `Position.C85_roundtrip`, `Position.C85_stable`, `Position.C86_fails_pad`, `Position.C86_fails_sixty`, `Position.C86_fails_zero`, `Position.C86_text_partial`, `Position.C86_value`, `PostCython.Props.C124_broken_name`, `PostCython.Props.C124_no_arguments`, `PostCython.Props.C124_no_version`, `PostCython.Props.C124_not_any_names`, `PostCython.Props.C124_process`, `PostCython.Props.C124_repeated_line`, `PostCython.Props.C124_unmarked`, `Product.C08_fails_self`, `Product.C08_product_calls`, `Product.C08_product_conserved`, `Prog.C50_arcs`, `Prog.C50_complete`, `Prog.C50_error`, `Prog.C50_exclusive`, `Prog.C50_fails_bid`, `Prog.C50_fails_request`, `Prog.C50_size`, `Prog.C50_supply`, `Prog.Props.C128_best`, `Prog.Props.C128_ends`, `Prog.Props.C128_fails_greedy`, `Prog.Props.C128_forgets`, `Prog.Props.C128_greedy_partial`, `Prog.Props.C128_null`, `Prog.Props.C128_refused`, `Prog.Props.C128_stopped`, `Prog.Props.C128_type`, `ProgDiff.C139_count`, `ProgDiff.C139_fails_code`, `ProgDiff.C139_fails_names`, `ProgDiff.C139_fails_trans`, `ProgDiff.C139_kinds`, `ProgDiff.C139_matrix`, `ProgDiff.C139_refl`, `ProgDiff.C139_size`, `ProgDiff.C139_symm`, `ProgDiff.C139_zero`, `PyAgent.C120_class`, `PyAgent.C120_clone`, `PyAgent.C120_fails_annotations`, `PyAgent.C120_fails_own`, `PyAgent.C120_fails_own_witness`, `PyAgent.C120_fails_subclass`, `PyAgent.C120_order`, `PyAgent.C120_restart`, `PyAgent.C120_same`, `PyAgent.C120_set`, `PyAgent.C120_zero`, `PyDb.Props.C130_back`, `PyDb.Props.C130_data`, `PyDb.Props.C130_errors`, `PyDb.Props.C130_fails_full`, `PyDb.Props.C130_fails_half`, `PyDb.Props.C130_fails_names`, `PyDb.Props.C130_fields`, `PyDb.Props.C130_lasting_partial`, `PyDb.Props.C130_query`, `PyDb.Props.C130_raises`, `PyDb.Props.C130_record`, `PyDb.Props.C130_refuses`, `PyDb.Props.C130_single_partial`, `PyExec.C125_accept`, `PyExec.C125_all`, `PyExec.C125_executed`, `PyExec.C125_fails_capacity`, `PyExec.C125_fails_kept`, `PyExec.C125_fails_room`, `PyExec.C125_fails_shut`, `PyExec.C125_fails_unchecked`, `PyExec.C125_given`, `PyExec.C125_room_partial`, `PyExec.C125_sink_requests`, `PyExec.C125_source_bids`, `PyExec.C125_source_idle`, `PyExec.C125_source_trades`, `PyInfile.C119_class_partial`, `PyInfile.C119_fails_map`, `PyInfile.C119_fails_nested`, `PyInfile.C119_fails_nuclide`, `PyInfile.C119_numbers`, `PyInfile.C119_parts`, `PyInfile.C119_reads`, `PyInfile.C119_required`, `PyInfile.C119_row`, `PyInfile.C119_row_same`, `PyInfile.C119_same`, `PyInv.C121_capacity`, `PyInv.C121_clone`, `PyInv.C121_empty`, `PyInv.C121_fails_clone`, `PyInv.C121_fails_init`, `PyInv.C121_fails_init_map`, `PyInv.C121_fails_lost`, `PyInv.C121_fails_map`, `PyInv.C121_fails_recorded`, `PyInv.C121_fails_restart`, `PyInv.C121_fails_sink`, `PyInv.C121_fails_snapshot`, `PyInv.C121_init_maps`, `PyInv.C121_init_none`, `PyInv.C121_negative`, `PyInv.C121_push`, `PyInv.C121_says`, `PyInv.C121_sink_buffer`, `PyJson.Props.C126_append`, `PyJson.Props.C126_converts`, `PyJson.Props.C126_dict_get`, `PyJson.Props.C126_dict_kept`, `PyJson.Props.C126_dict_keys`, `PyJson.Props.C126_dict_set`, `PyJson.Props.C126_extend`, `PyJson.Props.C126_fails_append`, `PyJson.Props.C126_fails_assign`, `PyJson.Props.C126_fails_file`, `PyJson.Props.C126_fails_in`, `PyJson.Props.C126_fails_insert`, `PyJson.Props.C126_fails_int`, `PyJson.Props.C126_fails_nul`, `PyJson.Props.C126_fails_parse`, `PyJson.Props.C126_fails_pop`, `PyJson.Props.C126_fails_popkey`, `PyJson.Props.C126_fails_read`, `PyJson.Props.C126_fails_unread`, `PyJson.Props.C126_index`, `PyJson.Props.C126_insert_partial`, `PyJson.Props.C126_list_del`, `PyJson.Props.C126_list_get`, `PyJson.Props.C126_list_set`, `PyJson.Props.C126_means`, `PyJson.Props.C126_parse`, `PyJson.Props.C126_pop_partial`, `PyJson.Props.C126_popkey`, `PyJson.Props.C126_read`, `PyJson.Props.C126_remove`, `PyJson.Props.C126_setdefault`, `PyJson.Props.C126_slice_del`, `PyJson.Props.C126_slice_set_partial`, `PyJson.Props.C126_update`, `PyLife.C133_fails_orphan`, `PyLoop.C136_fails_monitor`, `PyLoop.C136_fails_params`, `PyLoop.C136_fails_rest`, `PyLoop.C136_fails_text`, `PyLoop.C136_fails_unbound`, `PyLoop.C136_flush`, `PyLoop.C136_pairs_partial`, `PyLoop.C136_params`, `PyLoop.C136_steps_partial`, `PyLoop.C136_stop`, `PyMain.C134_default_partial`, `PyMain.C134_default_text`, `PyMain.C134_display`, `PyMain.C134_fails_created`, `PyMain.C134_fails_default`, `PyMain.C134_fails_del`, `PyMain.C134_fails_extension`, `PyMain.C134_fails_input`, `PyMain.C134_fails_order`, `PyMain.C134_fails_reload`, `PyMain.C134_load`, `PyMain.C134_main`, `PyMain.C134_no_input`, `PyMain.C134_success`, `PyMain.C134_too_many`, `PyPrefs.Props.C123_all`, `PyPrefs.Props.C123_chain`, `PyPrefs.Props.C123_effect`, `PyPrefs.Props.C123_fails_cpp`, `PyPrefs.Props.C123_fails_cpp_value`, `PyPrefs.Props.C123_new_objects`, `PySource.C135_back_partial`, `PySource.C135_fails_back`, `PySource.C135_fails_error`, `PySource.C135_fails_format`, `PySource.C135_fails_nul`, `PySource.C135_fails_path`, `PySource.C135_fails_raw`, `PySource.C135_file`, `PySource.C135_first`, `PySource.C135_missing`, `PySource.C135_none`, `PySource.C135_raw_partial`, `PySource.C135_text`, `PySource.C135_value_partial`, `PySource.C135_xml`, `PyTrade.Props.C122_bids`, `PyTrade.Props.C122_bids_capacity`, `PyTrade.Props.C122_bids_tuples`, `PyTrade.Props.C122_fails_bid_kind`, `PyTrade.Props.C122_fails_dict`, `PyTrade.Props.C122_fails_empty`, `PyTrade.Props.C122_fails_forms`, `PyTrade.Props.C122_fails_forms_error`, `PyTrade.Props.C122_fails_kind`, `PyTrade.Props.C122_fails_missing`, `PyTrade.Props.C122_fails_names_index`, `PyTrade.Props.C122_fails_names_preference`, `PyTrade.Props.C122_fails_none`, `PyTrade.Props.C122_fails_pair`, `PyTrade.Props.C122_fails_plain_constraints`, `PyTrade.Props.C122_fails_plain_preference`, `PyTrade.Props.C122_fails_preference`, `PyTrade.Props.C122_fails_preference_value`, `PyTrade.Props.C122_many`, `PyTrade.Props.C122_many_bids`, `PyTrade.Props.C122_only_resources`, `PyTrade.Props.C122_only_resources_plain`, `PyTrade.Props.C122_pairs`, `PyTrade.Props.C122_pairs_error`, `PyTrade.Props.C122_pairs_repeated`, `PyTrade.Props.C122_plain`, `PyTrade.Props.C122_requests`, `Random.C93_constructors`, `Random.C93_ends`, `Random.C93_fails_limits`, `Random.C93_fails_make_normal`, `Random.C93_fails_parameters`, `Random.C93_fails_trials`, `Random.C93_fails_uniform_int`, `Random.C93_int`, `Random.C93_ranges`, `Random.C93_reproducible`, `Random.C93_truncated`, `Random.C93_uses`, `Rec.C29_all`, `Rec.C29_exact`, `Rec.C30_cond`, `Rec.C30_getVal`, `Rec.C30_hdf5_partial`, `Rec.C30_sqlite_partial`, `RecipeCtx.C52_sets`, `RecipeCtx.C52_snapshot`, `Registry.C94_fails_default_limit`, `Registry.C94_input`, `Registry.C94_load_partial`, `Registry.C94_load_refuses`, `Registry.C94_packages`, `Registry.C94_prototypes`, `Registry.C94_recipes`, `Registry.C94_refusals`, `ResBuf.C01_fails_duplicate`, `ResBuf.C01_fails_mixed`, `ResBuf.C01_quantity_is_sum_partial`, `ResBuf.C02_capacity_respected_partial`, `ResBuf.C02_excess_bounded`, `ResBuf.C02_fails`, `ResBuf.C02_overflow_rejected`, `ResBuf.C02_overflow_unbounded`, `ResBuf.C03_popBack_newest`, `ResBuf.C03_popN_oldest`, `ResBuf.C03_popQty_exact`, `ResBuf.C03_popVector_exact`, `ResBuf.C03_pop_oldest`, `ResBuf.C04_failed_call_atomic_partial`, `ResBuf.C04_fails_pop`, `ResBuf.C04_fails_push`, `ResBuf.C05_fails`, `ResBuf.C05_no_duplicates_partial`, `ResMap.C82_fails_null`, `ResMap.C82_fails_reference`, `ResMap.C82_fails_stale`, `ResMap.C82_keys`, `ResMap.C82_quantity_partial`, `ResMap.C82_restart_partial`, `Schema.C99_aliases_partial`, `Schema.C99_fails_absent`, `Schema.C99_schema`, `Schema.C99_specs`, `Sell.C48_fails_packages`, `Sell.C48_fails_small`, `Sell.C48_packages_partial`, `Sell.C48_plain_partial`, `Sell.C70_bids`, `Sell.C70_fails_empty`, `Sell.C70_quantum`, `Sell.C71_fails_plain`, `Sell.C71_transport_partial`, `Server.C39_not_stuck_partial`, `Server.C39_resumes_partial`, `Sql.C106.C106_fails_type`, `Sql.C106.C106_rows_partial`, `Sql.C106.C106_unsupported`, `StateTables.C140_archetype`, `StateTables.C140_base_partial`, `StateTables.C140_fails_colon`, `StateTables.C140_fails_share`, `StateTables.C140_fails_titles`, `StateTables.C140_fails_twice`, `StateTables.C140_inventory_partial`, `StateTables.C140_prototype`, `StateTables.C140_titles`, `Stock.C104.C104_fails_again`, `Stock.C104.C104_fails_decay_time`, `Stock.C104.C104_fails_emptied`, `Stock.C104.C104_fails_package`, `Stock.C104.C104_fails_untracked`, `Stock.C104.C104_inventories_partial`, `Stock.C104.C104_resource_partial`, `Stub.C141_all`, `Stub.C141_apart_partial`, `Stub.C141_files`, `Stub.C141_keeps_false`, `Stub.C141_keeps_partial`, `Stub.C141_library`, `Stub.C141_noname_false`, `Stub.C141_once_false`, `Stub.C141_read`, `Stub.C141_tests_false`, `Stub.C141_unchanged`, `Styled.Props.C131_fails_real`, `Styled.Props.C131_fails_str`, `Styled.Props.C131_layout`, `Styled.Props.C131_reads_partial`, `Styled.Props.C131_same_partial`, `Styled.Props.C131_str_partial`, `Styled.Props.C131_text`, `Timing.C22_accepts`, `Timing.C22_builds`, `Timing.C23_accepts`, `Timing.C23_decoms`, `Timing.C23_fails_lost`, `Timing.C23_fails_twice`, `Timing.C23_once_partial`, `Timing.C24_end`, `Timing.C24_end`, `Timing.C24_once_partial`, `Timing.C24_order`, `Timing.C24_step`, `Timing.C65_snapshots`, `Timing.C66_listeners`, `Tracker.C10_fails_clone`, `Tracker.C10_genealogy_wellFounded`, `Tracker.C10_ids_unique`, `Tracker.C10_parents_recorded`, `Tracker.C54_fails_clone`, `Tracker.C54_fails_product`, `Tracker.C54_untracked_silent_partial`, `Tracker.C56_rows_show_quantity`, `TransportUnit.C07_fails_zero_min`, `TransportUnit.C07_hybrid_optimal`, `TransportUnit.C07_shippable_partial`, `TransportUnit.C07_unrestricted`, `VLFiles.C110.C110_fails_handle`, `VLFiles.C110.C110_fails_index`, `VLFiles.C110.C110_fails_keys`, `VLFiles.C110.C110_fails_lost`, `VLFiles.C110.C110_fails_variation`, `VLFiles.C110.C110_holds_partial`, `VLFiles.C110.C110_keys_partial`, `VLFiles.C110.C110_read_partial`, `VLFiles.C110.C110_session_partial`, `Validator.C138_accept`, `Validator.C138_freed`.

`Quot.sound`: `Validator.C138_reject`.

`Quot.sound`, `propext`: `Agents.C25_decommission`, `Agents.C25_fails_leak`, `Agents.C25_fails_rebuild`, `Agents.C25_fails_subtree`, `Agents.C25_leak`, `Agents.C25_refused`, `Agents.C25_tree`, `Agents.C28_counts`, `Agents.C28_fails`, `Agents.C28_partial`, `Agents.C67_fails_print`, `AnyHold.Props.C129_fails_leak`, `Archetypes.C87_fails_offer`, `ChangePackage.C11_material_partial`, `ChangePackage.C11_product`, `Cli.C103_information_partial`, `Cli.C103_restart_spec`, `Cli.C103_usage`, `Commod.C73_copy`, `Commod.C73_entries`, `Commod.C73_fails_default`, `Commod.C73_fails_query`, `Commod.C73_query`, `Commod.C74_demand`, `Commod.C74_fails_lost`, `Conf.C105.C105_fails_preconditioner`, `Cycpp.C44_cycle`, `Cycpp.C44_fails_doc`, `Cycpp.C44_fails_indirect`, `CycppLine.C118_lines`, `CycppScan.C114_fails_circle`, `CycppScan.C114_head_partial`, `CycppScan.C114_meaning_partial`, `CycppScan.C114_origin_partial`, `CycppText.C116_cover`, `CycppText.C116_nothing_lost`, `CycppText.C116_split_partial`, `CycppType.C115_fixed`, `Decay.C76_fails_unknown`, `Decay.C76_immutable`, `Diag.C102_fails_debug1`, `Diag.C102_form`, `Diag.C102_messages`, `Diag.C102_switches`, `Discovery.C83_fails_begin`, `Discovery.C83_files_partial`, `Discovery.C83_names_partial`, `Discovery.C84_split`, `Dre.C18_delivered_partial`, `Dre.C18_fails_foreign`, `Dre.C18_requesters`, `Dre.C18_rows`, `Dre.C18_suppliers`, `Dre.C21_fails_bidder`, `Dre.C63_collect`, `EnvPaths.C137_base_partial`, `EnvPaths.C137_fails_base`, `EnvPaths.C137_fails_relative`, `EnvPaths.C137_fixed`, `EnvPaths.C137_found`, `Hdf5Rows.C109.C109_fails_inner`, `Infile.C96_fails_recipe`, `Infile.C96_fails_twice`, `Infile.C96_find`, `Infile.C96_int`, `Infile.C96_optional_partial`, `InfileGen.C113_bool`, `InfileGen.C113_declare`, `InfileGen.C113_default`, `InfileGen.C113_generates`, `InfileGen.C113_literal`, `InfileGen.C113_proper_partial`, `Info.C95_numbers`, `Init.C32_fails_decom`, `Init.C32_fails_later`, `Init.C32_fails_now`, `Init.C32_fails_parent`, `LMat.C90_fails_tall`, `Load.C36_read`, `Load.C36_rejects`, `Load.C36_sanitize_partial`, `Load.C36_str`, `MemBack.C37_drop_partial`, `MemBack.C75_deregister_partial`, `MemBack.C75_fails_all`, `MemBack.C75_fails_all_deregister`, `MemBack.C75_fails_answer`, `MemBack.C75_register_partial`, `Nuc.C101_elements`, `Nuc.C101_isnuclide`, `Nuc.C101_symbols`, `Nuc.C111_fails_state`, `Nuc.C111_mcnp_ends`, `Nuc.C111_numbers_read`, `Policy.C47_fails_null`, `Policy.C53_fails_init`, `PyAgent.C120_fails_order`, `PyAgent.C120_fails_pair`, `PyAgent.C120_snapshot`, `PyAgent.C120_starts`, `PyExec.C125_errors`, `PyExec.C125_repeated`, `PyExec.C125_responses`, `PyInfile.C119_default`, `PyInfile.C119_fails_blob`, `PyInfile.C119_fails_null`, `PyInfile.C119_set_path`, `PyJson.Props.C126_count`, `PyJson.Props.C126_dict_del`, `PyJson.Props.C126_fails_modern`, `PyJson.Props.C126_none`, `PyJson.Props.C126_reverse`, `PyJson.Props.C126_str_partial`, `PyLife.C133_alive_partial`, `PyLife.C133_clear`, `PyLife.C133_delete_partial`, `PyLife.C133_freed_partial`, `PyLife.C133_safe_partial`, `PyLife.C133_same_partial`, `PyLoop.C136_fails_again`, `PyLoop.C136_interp_partial`, `PyLoop.C136_unused`, `PyMain.C134_extension`, `PyMain.C134_once`, `PyPrefs.Props.C123_fails_reuse`, `PyPrefs.Props.C123_fails_wrappers`, `PyPrefs.Props.C123_first`, `PyPrefs.Props.C123_requests`, `PyTrade.Props.C122_preference_partial`, `RecipeCtx.C52_fails_stale`, `RecipeCtx.C52_fails_unknown`, `RecipeCtx.C52_lookup`, `Registry.C94_fails_overwrite`, `Registry.C94_fails_reserved`, `Registry.C94_versions`, `ResMap.C82_fails_shared`, `Schema.C99_lookup`, `Server.C39_fails_double`, `Server.C39_fails_queued`, `Sql.C106.C106_fails_cast`, `Sql.C106.C106_fails_nan`, `Sql.C106.C106_fails_nul`, `Sql.C106.C106_fails_order`, `Sql.C106.C106_fails_retry`, `Sql.C106.C106_stuck`, `Stub.C141_insert`, `Stub.C141_insert_none`, `Timing.C22_fails_parent`, `Timing.C24_fails_skip`, `Timing.C24_fails_twice`, `VL.C31_classified`, `VL.C31_distinct`, `VL.C31_fails_memory`, `VL.C31_fails_nul`, `VL.C31_read_partial`, `VL.C31_string_partial`, `Validator.C138_check`, `Validator.C138_fails_leak`, `Validator.C138_fails_result`, `Validator.C138_kind_partial`, `Validator.C138_text`.

`propext`: `Agents.C27_after`, `Agents.C27_before`, `Agents.C27_fails_force`, `Agents.C27_force_partial`, `AnyHold.Props.C129_fails_chars`, `Cli.C103_fails_information`, `Cli.C103_fails_no_catch`, `Cli.C103_fails_restart_no_input`, `Cli.C103_fails_rng_print`, `Cli.C103_fails_schema_path`, `Cli.C103_fails_uncaught`, `Cycpp.C43_fails_clash`, `CycppLine.C118_continued`, `CycppScan.C114_fails_clash`, `CycppScan.C114_fails_leading`, `CycppScan.C114_known`, `CycppType.C115_bound`, `CycppType.C115_fails_enclosing`, `CycppType.C115_fails_returns`, `Decay.C76_create`, `Diag.C102_fails_no_mem`, `Diag.C102_fails_verb`, `EnvPaths.C137_split`, `Hdf5Rows.C109.C109_fails_nul`, `InfileGen.C113_fails_internal`, `InfileGen.C113_part`, `Info.C95_fails_duration`, `Initial.C100_fails`, `LMat.C90_sizes`, `Load.C36_fails_roundtrip`, `Load.C36_roundtrip`, `Nuc.C101_fails_heavy_hydrogen`, `Nuc.C101_fails_keys`, `Nuc.C101_fails_mcnp`, `Nuc.C101_fails_overflow`, `Nuc.C101_fails_small`, `Nuc.C101_fails_texts`, `Nuc.C111_fails_element`, `Nuc.C111_fails_ensdf`, `Nuc.C111_fails_fluka`, `Nuc.C111_fails_mcnp`, `Par.C107.C107_fails_count`, `Par.C107.C107_fails_datum`, `Par.C107.C107_fails_ids`, `Par.C107.C107_fails_mixed`, `Par.C107.C107_fails_order`, `Par.C107.C107_fails_throw`, `PyAgent.C120_copied`, `PyAgent.C120_fails_rows`, `PyExec.C125_fails_shipments`, `PyExec.C125_silent`, `PyExec.C125_sink_accepts`, `PyInfile.C119_hash`, `PyInfile.C119_names`, `PyJson.Props.C126_fails_slice`, `PyJson.Props.C126_slice_get`, `PyLife.C133_fails_clear`, `PyLife.C133_fails_double`, `PyLife.C133_fails_same`, `PyLife.C133_fails_stale`, `PyLife.C133_fails_use`, `PyLoop.C136_fails_return`, `PyMain.C134_input_partial`, `PyMain.C134_memory`, `PyMain.C134_run`, `PyPrefs.Props.C123_commodity_partial`, `PyPrefs.Props.C123_fails_inplace`, `PyPrefs.Props.C123_requests_shared`, `Rec.C29_fails_dump_count`, `Rec.C29_fails_dump_count_small`, `Rec.C29_fails_interleaved`, `Rec.C29_fails_name`, `Rec.C29_fails_unrecorded`, `Rec.C29_fails_zero`, `Rec.C30_fails_empty`, `Rec.C30_fails_injector`, `Rec.C30_fails_prefix`, `Rec.C30_fails_unknown`, `Rec.C30_injector`, `Rec.C30_prefix`, `Schema.C99_fails_alias`, `Schema.C99_fails_format`, `Schema.C99_fails_twice`, `Schema.C99_flat`, `Schema.C99_load`, `Server.C39_fails_overtake`, `Server.C39_fails_shutdown`, `Server.C39_holds`, `VL.C31_count`, `VL.C31_fails`, `VL.C31_fails_strings`.

