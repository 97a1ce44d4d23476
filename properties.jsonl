{"id": "C01", "title": "Block partitioning loses, repeats and reorders nothing", "statement": "Splitting a sequence into q block partitions and concatenating the q pieces in order returns the original sequence.", "quantifier": "every sequence, every number of partitions q >= 1", "why_tests_cant": "tests try a handful of lengths and q; the index arithmetic has separate branches for p < remainder and p >= remainder, so it must be checked for all (n, q)", "anchors": ["ipyparallel/client/map.py:Map.getPartition", "ipyparallel/client/map.py:Map.concatenate/joinPartitions"]}
{"id": "C02", "title": "Block partitions are balanced; bad partition indices are rejected", "statement": "For n items and q partitions every partition has floor(n/q) or ceil(n/q) items (so any two differ by at most one, and larger ones come first); asking for partition p outside 0..q-1 raises ValueError and returns nothing.", "quantifier": "every sequence length n, every q, every integer p (including negative and too large)", "why_tests_cant": "arithmetic over all (n,p,q)", "anchors": ["ipyparallel/client/map.py:Map.getPartition"]}
{"id": "C03", "title": "Round-robin partitioning round-trips", "statement": "Splitting a sequence with dist='r' into q pieces and joining them gives back the original sequence, for every length, including lengths smaller than q and not divisible by q.", "quantifier": "every sequence, every q >= 1", "why_tests_cant": "the join walks rows of unequal pieces; off-by-one shows only at particular (n mod q)", "anchors": ["ipyparallel/client/map.py:RoundRobinMap"]}
{"id": "C04", "title": "Parallel map equals sequential map", "statement": "view.map / ParallelFunction.map over any number of argument sequences returns, in order, f applied to the zipped (shortest-truncated) arguments when the lengths agree, for every chunksize and for every number of targets; no element is lost, duplicated or reordered.", "quantifier": "every function, every tuple of equal-length sequences, every chunksize >= 1 or number of targets >= 1", "why_tests_cant": "tests use a few lengths and chunk sizes; the boundary between balanced/unbalanced partitioning, empty chunks and joins needs all of them", "anchors": ["ipyparallel/client/remotefunction.py:ParallelFunction.__call__", "ipyparallel/client/asyncresult.py:AsyncMapResult._reconstruct_result", "ipyparallel/client/map.py"]}
{"id": "C05", "title": "Unequal-length maps and calls", "statement": "Calling a parallel function element-wise on sequences of different lengths raises ValueError before anything is submitted; mapping over sequences of unequal length yields exactly the results of Python's zip-truncated map.", "quantifier": "every list of sequences with at least two different lengths, every partitioning", "why_tests_cant": "a partition boundary that truncates inside one chunk but not in another is only visible for particular combinations of lengths", "anchors": ["ipyparallel/client/remotefunction.py:ParallelFunction.__call__", "ipyparallel/client/remotefunction.py:_map"]}
{"id": "C06", "title": "Chunks never exceed chunksize and every task has work", "statement": "In a load-balanced map with chunksize c every submitted task receives at most c items, every submitted task receives at least one item, and the number of tasks is ceil(n/c).", "quantifier": "every n >= 0, every c >= 1", "why_tests_cant": "arithmetic over all (n,c)", "anchors": ["ipyparallel/client/remotefunction.py:ParallelFunction.__call__"]}
{"id": "C07", "title": "Scatter then gather is the identity", "statement": "view.scatter(key, seq) followed by view.gather(key) on the same targets and same dist returns seq, for every number of engines; without flatten.", "quantifier": "every sequence, every number of engines >= 1, both distributions", "why_tests_cant": "depends on (n, engines) arithmetic and on the join picking the right concatenation", "anchors": ["ipyparallel/client/view.py:DirectView.scatter", "ipyparallel/client/view.py:DirectView.gather", "ipyparallel/client/map.py"]}
{"id": "C08", "title": "Iterating a map result agrees with get()", "statement": "Iterating an ordered map result yields exactly the list get() returns, whether or not the result was complete when iteration started; iterating an unordered one yields each task's chunk exactly once, in completion order.", "quantifier": "every partition of results into chunks, every completion order, both dists", "why_tests_cant": "depends on scheduling: which chunks are complete when the iterator starts", "anchors": ["ipyparallel/client/asyncresult.py:AsyncMapResult.__iter__", "ipyparallel/client/asyncresult.py:AsyncMapResult._ordered_iter", "ipyparallel/client/asyncresult.py:AsyncMapResult._unordered_iter"]}
{"id": "C09", "title": "A combined future is done only when all parts are", "statement": "The future behind a multi-task AsyncResult becomes done exactly when every child is done, its result is the children's results in submission order, and it fails iff some child failed; it is resolved at most once.", "quantifier": "every list of children, every order in which they complete, every mix of success and failure", "why_tests_cant": "every completion schedule", "anchors": ["ipyparallel/client/futures.py:multi_future"]}
{"id": "C10", "title": "collect_exceptions reports every remote failure exactly once", "statement": "collect_exceptions raises iff at least one result is a remote error, the raised composite contains every remote error (composites flattened) in order and nothing else; if there is none the results are returned unchanged.", "quantifier": "every list of results, with nested composites", "why_tests_cant": "all mixes and orders of results and failures", "anchors": ["ipyparallel/error.py:collect_exceptions"]}
{"id": "C11", "title": "Progress and elapsed accounting of an AsyncResult", "statement": "progress counts completed tasks, lies between 0 and the number of tasks, never decreases, and equals the number of tasks iff the result is ready (len() of a map result is the number of items mapped).", "quantifier": "every set of outstanding tasks and every order of completion", "why_tests_cant": "every completion schedule", "anchors": ["ipyparallel/client/asyncresult.py:AsyncResult.progress", "ipyparallel/client/asyncresult.py:AsyncResult.__len__"]}
{"id": "C12", "title": "imap yields map's results in order and bounds outstanding tasks", "statement": "LoadBalancedView.imap over any (lazy) iterable yields f of every input exactly once; ordered imap yields them in input order; at no point are more than max_outstanding of its tasks unfinished; no input beyond that window is consumed.", "quantifier": "every input sequence, every max_outstanding >= 1, every completion order", "why_tests_cant": "every interleaving of completions with consumption", "anchors": ["ipyparallel/client/view.py:LoadBalancedView.imap"]}
{"id": "C13", "title": "Dependency satisfaction means what all/any + success/failure say", "statement": "A dependency is met exactly when: it is empty, or (all) every listed task finished in an acceptable way, or (any) some listed task did, where acceptable = success if success, failure if failure, any finish if both.", "quantifier": "every set of task ids, every flag combination, every completed/failed history", "why_tests_cant": "infinite families of sets and histories", "anchors": ["ipyparallel/controller/dependency.py:Dependency.check"]}
{"id": "C14", "title": "Unreachable is sound, complete and permanent", "statement": "A dependency is reported unreachable exactly when no future completion history can satisfy it; once unreachable it stays unreachable, once met it stays met, and it is never both.", "quantifier": "every dependency, every history and every extension of it with each task finishing at most once", "why_tests_cant": "quantifies over all futures", "anchors": ["ipyparallel/controller/dependency.py:Dependency.unreachable"]}
{"id": "C15", "title": "High water mark is never exceeded", "statement": "With TaskScheduler.hwm = h > 0, at no moment does any engine hold more than h tasks that were sent to it and not yet answered.", "quantifier": "every history of submissions, engine registrations/unregistrations, replies and timeouts", "why_tests_cant": "every interleaving of events; violation would need specific races", "anchors": ["ipyparallel/controller/task_scheduler.py:TaskScheduler.maybe_run", "ipyparallel/controller/task_scheduler.py:TaskScheduler.submit_task", "ipyparallel/controller/task_scheduler.py:TaskScheduler.add_job"]}
{"id": "C16", "title": "Tasks run only where they may", "statement": "Every task the scheduler sends goes to a currently registered engine which is in the task's targets (if given), has not already failed/refused that task, and satisfies its follow (location) dependency.", "quantifier": "every history of events", "why_tests_cant": "every interleaving", "anchors": ["ipyparallel/controller/task_scheduler.py:TaskScheduler.maybe_run", "ipyparallel/controller/task_scheduler.py:TaskScheduler.handle_unmet_dependency", "ipyparallel/controller/task_scheduler.py:TaskScheduler.handle_result"]}
{"id": "C17", "title": "No task starts before its time dependency is met", "statement": "A task with an `after` dependency is never sent to an engine before that dependency is met by tasks that have finished.", "quantifier": "every history of events", "why_tests_cant": "every interleaving", "anchors": ["ipyparallel/controller/task_scheduler.py:TaskScheduler.dispatch_submission", "ipyparallel/controller/task_scheduler.py:TaskScheduler.update_graph"]}
{"id": "C18", "title": "Retry limit", "statement": "A task submitted with retries=r is sent at most r+1 times as a consequence of failures; after r+1 failures the client receives the failure; a success is always relayed at once.", "quantifier": "every history of failures and engine deaths", "why_tests_cant": "every interleaving of failures, unmet dependencies and deaths", "anchors": ["ipyparallel/controller/task_scheduler.py:TaskScheduler.dispatch_result", "ipyparallel/controller/task_scheduler.py:TaskScheduler.handle_stranded_tasks"]}
{"id": "C19", "title": "Every submitted task gets at most one final reply, and the queue never loses a task", "statement": "The client receives at most one final reply for each submitted task; until it is replied to, a task is in exactly one place: waiting, or assigned to one engine.", "quantifier": "every history of events", "why_tests_cant": "every interleaving; duplicates/losses need rare event orders", "anchors": ["ipyparallel/controller/task_scheduler.py"]}
{"id": "C20", "title": "Tasks of a dead engine are answered or retried", "statement": "When an engine is unregistered, each task that was assigned to it and is unfinished is, after the grace delay, either answered with an EngineError or queued again; none is forgotten.", "quantifier": "every set of assigned tasks, every order of late replies", "why_tests_cant": "timing of late replies vs. grace period", "anchors": ["ipyparallel/controller/task_scheduler.py:TaskScheduler._unregister_engine", "ipyparallel/controller/task_scheduler.py:TaskScheduler.handle_stranded_tasks"]}
{"id": "C21", "title": "Impossible dependencies fail instead of waiting", "statement": "A task whose after/follow dependency becomes unreachable, or whose ids are unknown, or whose targets are all gone, is answered with an error (ImpossibleDependency / InvalidDependency), never left waiting, and does so transitively for tasks depending on it.", "quantifier": "every dependency graph and every history of failures", "why_tests_cant": "every DAG shape and failure order", "anchors": ["ipyparallel/controller/task_scheduler.py:TaskScheduler.fail_unreachable", "ipyparallel/controller/task_scheduler.py:TaskScheduler.update_graph", "ipyparallel/controller/task_scheduler.py:TaskScheduler.dispatch_submission"]}
{"id": "C22", "title": "Load bookkeeping is exact and least-load picks a minimum", "statement": "Each registered engine's load equals the number of tasks sent to it and not yet finished; the leastload scheme always picks an engine of minimal load, lru the engine that has been idle the longest; all schemes return a valid index.", "quantifier": "every load vector, every random choice, every history", "why_tests_cant": "all load vectors and random outcomes", "anchors": ["ipyparallel/controller/task_scheduler.py:leastload", "ipyparallel/controller/task_scheduler.py:lru", "ipyparallel/controller/task_scheduler.py:twobin", "ipyparallel/controller/task_scheduler.py:weighted", "ipyparallel/controller/task_scheduler.py:plainrandom"]}
{"id": "C23", "title": "Waiting tasks run in submission order", "statement": "Of two waiting tasks that are both runnable on the same set of engines, the one submitted first is sent first (queue is FIFO).", "quantifier": "every queue content and every load situation", "why_tests_cant": "requires every queue/blocked pattern", "anchors": ["ipyparallel/controller/task_scheduler.py:TaskScheduler.update_graph"]}
{"id": "C24", "title": "Broadcast reaches each target exactly once", "statement": "A broadcast to a set of engines is delivered exactly once to each target and to no other engine, through a spanning tree of any depth.", "quantifier": "every tree depth, every set of engine ids (including ids larger than the number of leaves)", "why_tests_cant": "all depths and id sets", "anchors": ["ipyparallel/controller/broadcast_scheduler.py:BroadcastScheduler", "ipyparallel/engine/app.py:IPEngine", "ipyparallel/controller/app.py"]}
{"id": "C25", "title": "Coalesced broadcast replies", "statement": "A coalescing broadcast gets exactly one reply, after every target has answered; it contains every engine's result exactly once, paired with the right engine, independent of the order in which engines answer; an error of any engine is visible.", "quantifier": "every tree depth, every set of targets, every arrival order", "why_tests_cant": "every arrival order", "anchors": ["ipyparallel/controller/broadcast_scheduler.py:BroadcastScheduler.coalescing_reply", "ipyparallel/client/client.py"]}
{"id": "C26", "title": "Heartbeat failure detection is exact", "statement": "A heart is declared dead exactly when it has failed to answer more than max_heartmonitor_misses consecutive beats; any answer to the current or previous ping resets the count; a live heart that always answers in time is never declared dead, a silent one is declared dead after exactly max+1 missed beats.", "quantifier": "every sequence of beats and pongs, every max_misses", "why_tests_cant": "every interleaving of pongs with beats", "anchors": ["ipyparallel/controller/heartmonitor.py:HeartMonitor"]}
{"id": "C27", "title": "New and lost hearts are each notified once", "statement": "The handler for a new heart fires exactly once per appearance and the failure handler exactly once per disappearance; they alternate.", "quantifier": "every sequence of beats and pongs", "why_tests_cant": "every interleaving", "anchors": ["ipyparallel/controller/heartmonitor.py:HeartMonitor.handle_new_heart", "ipyparallel/controller/heartmonitor.py:HeartMonitor.handle_heart_failure"]}
{"id": "C28", "title": "Engine ids are unique", "statement": "No two engines that are registered or registering at the same time have the same id, and an id handed out automatically is never reused while the controller runs.", "quantifier": "every history of registrations (with or without requested id), completions, stalls and unregistrations", "why_tests_cant": "every interleaving of registration and heartbeats", "anchors": ["ipyparallel/controller/hub.py:Hub.new_engine_id", "ipyparallel/controller/hub.py:Hub.register_engine", "ipyparallel/controller/hub.py:Hub.finish_registration", "ipyparallel/controller/hub.py:Hub.unregister_engine"]}
{"id": "C29", "title": "Restarting a controller restores its engines and never re-issues their ids", "statement": "After any number of controller restarts from saved state, every engine registered before the crash is registered with the same id and the next automatic id is larger than all of them.", "quantifier": "every set of engines, every number of restarts, every crash point", "why_tests_cant": "crash points and restart sequences", "anchors": ["ipyparallel/controller/hub.py:Hub._load_engine_state", "ipyparallel/controller/hub.py:Hub._save_engine_state"]}
{"id": "C30", "title": "Hub: a message is either pending or completed", "statement": "For each task/queue message the Hub knows it is in exactly one of pending and completed; once completed it never becomes pending again; queue counts reported by queue_status agree with the messages sent and answered.", "quantifier": "every interleaving of request/result notifications (including result before request)", "why_tests_cant": "monitor messages may arrive in any order", "anchors": ["ipyparallel/controller/hub.py:Hub.save_queue_request", "ipyparallel/controller/hub.py:Hub.save_queue_result", "ipyparallel/controller/hub.py:Hub.save_task_request", "ipyparallel/controller/hub.py:Hub.save_task_result", "ipyparallel/controller/hub.py:Hub.queue_status"]}
{"id": "C31", "title": "Results fetched from the Hub are the ones the engine returned", "statement": "result_request/get_result for any list of ids returns for each completed id exactly the stored reply and buffers of that id, classifies each id as pending or completed correctly, and rejects unknown ids.", "quantifier": "every list of ids, every order, every mix of pending and completed", "why_tests_cant": "needs all id mixes; stale-variable bugs show only for some order", "anchors": ["ipyparallel/controller/hub.py:Hub.get_results", "ipyparallel/client/client.py:Client.result_status"]}
{"id": "C32", "title": "Purging removes exactly what was asked", "statement": "purge_results removes exactly the named completed results (or those of the named engines) and never a pending one; other records stay readable.", "quantifier": "every database content and purge request", "why_tests_cant": "all database contents", "anchors": ["ipyparallel/controller/hub.py:Hub.purge_results", "ipyparallel/controller/dictdb.py:DictDB.drop_matching_records"]}
{"id": "C33", "title": "DictDB behaves like a map of records", "statement": "Any sequence of add/update/get/drop behaves like a plain map from id to record: a get of an id that was not evicted returns the merge of the last add and all later updates; unknown, dropped or evicted ids raise KeyError, and exactly the calls on unknown/duplicate ids or with malformed dates raise.", "quantifier": "every sequence of operations", "why_tests_cant": "every history of operations", "anchors": ["ipyparallel/controller/dictdb.py:DictDB"]}
{"id": "C34", "title": "DictDB queries return exactly the matching records", "statement": "find_records(check) returns exactly the records satisfying every condition in the check ($lt,$gt,$eq,$lte,$gte,$ne,$in,$nin,$all,$mod,$exists and plain equality), with exactly the requested keys plus msg_id.", "quantifier": "every database content and every check dictionary", "why_tests_cant": "all checks and contents", "anchors": ["ipyparallel/controller/dictdb.py:CompositeFilter", "ipyparallel/controller/dictdb.py:DictDB._match", "ipyparallel/controller/dictdb.py:DictDB.find_records"]}
{"id": "C35", "title": "DictDB limits are enforced", "statement": "After any operation the number of records is at most record_limit and the total buffer size at most size_limit (when positive), the accounted size equals the real size of the stored buffers, and records are evicted oldest first.", "quantifier": "every history of add/update/drop, every limit and cull fraction", "why_tests_cant": "every history", "anchors": ["ipyparallel/controller/dictdb.py:DictDB._maybe_cull", "ipyparallel/controller/dictdb.py:DictDB._cull_oldest", "ipyparallel/controller/dictdb.py:DictDB._drop_bytes"]}
{"id": "C36", "title": "SQLiteDB and DictDB agree", "statement": "For the same history and the same query SQLiteDB returns the same records as DictDB; every legal query renders to a well-formed, fully parameterised SQL expression.", "quantifier": "every check dictionary and table content", "why_tests_cant": "all queries", "anchors": ["ipyparallel/controller/sqlitedb.py:SQLiteDB._render_expression", "ipyparallel/controller/sqlitedb.py:SQLiteDB.find_records"]}
{"id": "C37", "title": "Serialization round-trips", "statement": "deserialize_object(serialize_object(x) + rest) = (x, rest): for every value tree (nested lists, tuples, dicts, bytes, arrays) and every threshold, buffers are re-attached at exactly the places they were taken from, and unrelated trailing buffers are untouched.", "quantifier": "every object tree, every buffer_threshold and item_threshold", "why_tests_cant": "all nestings and thresholds", "anchors": ["ipyparallel/serialize/serialize.py:serialize_object", "ipyparallel/serialize/serialize.py:deserialize_object", "ipyparallel/serialize/canning.py"]}
{"id": "C38", "title": "apply messages round-trip", "statement": "unpack_apply_message(pack_apply_message(f, args, kwargs)) gives back f, the positional arguments in order and the keyword arguments, for every buffer layout.", "quantifier": "every f, args, kwargs and threshold", "why_tests_cant": "all argument shapes", "anchors": ["ipyparallel/serialize/serialize.py:pack_apply_message", "ipyparallel/serialize/serialize.py:unpack_apply_message"]}
{"id": "C39", "title": "can/uncan are inverse", "statement": "uncan(can(x)) = x for every supported nesting of sequences, mappings, partials, references and buffers (references resolved in the engine namespace).", "quantifier": "every value tree", "why_tests_cant": "all nestings", "anchors": ["ipyparallel/serialize/canning.py:can", "ipyparallel/serialize/canning.py:uncan", "ipyparallel/serialize/canning.py:CannedPartial"]}
{"id": "C40", "title": "Client request bookkeeping", "statement": "Every message id a client sends is outstanding until its reply arrives and never afterwards; each future is resolved exactly once with the first reply (later/stale replies can't change an observed result); wait() returns iff nothing is outstanding.", "quantifier": "every interleaving of sends, replies, duplicate replies and engine deaths", "why_tests_cant": "every interleaving", "anchors": ["ipyparallel/client/client.py:Client._send", "ipyparallel/client/client.py:Client._handle_apply_reply", "ipyparallel/client/client.py:Client.wait"]}
{"id": "C41", "title": "Stranded requests fail with EngineError", "statement": "When an engine dies every outstanding DirectView request to it is resolved with an EngineError unless its real reply was already received; requests to other engines are untouched.", "quantifier": "every set of outstanding requests and reply interleavings", "why_tests_cant": "every interleaving", "anchors": ["ipyparallel/client/client.py:Client._unregister_engine", "ipyparallel/client/client.py:Client._handle_stranded_msgs"]}
{"id": "C42", "title": "Target selection means what the index says", "statement": "client[k]/direct_view(targets) resolves 'all', ints (negative from the end), slices, and lists to exactly those registered engine ids, raises an error (IndexError, KeyError for a list, NoEnginesRegistered, TypeError) otherwise.", "quantifier": "every set of engine ids, every target expression", "why_tests_cant": "all id sets and expressions", "anchors": ["ipyparallel/client/client.py:Client._build_targets", "ipyparallel/client/client.py:Client.__getitem__"]}
{"id": "C43", "title": "Local purge and history", "statement": "purge_local_results removes exactly the named finished results and refuses outstanding ones; purge_local_results(targets=...) removes exactly those of these engines.", "quantifier": "every cache content and argument", "why_tests_cant": "all cache contents", "anchors": ["ipyparallel/client/client.py:Client.purge_local_results", "ipyparallel/client/client.py:Client._msg_ids_from_target"]}
{"id": "C44", "title": "View flags are restored", "statement": "After `with view.temp_flags(...)` (or a failing call inside), the view's flags are as before, whatever happens inside.", "quantifier": "every flag assignment, every exception point", "why_tests_cant": "exception at every point", "anchors": ["ipyparallel/client/view.py:View.temp_flags"]}
{"id": "C45", "title": "Aborted tasks never run", "statement": "After an abort request for ids A is processed, a later request whose id is in A is answered 'aborted' and its code is not executed; all other requests are executed exactly once, in order.", "quantifier": "every sequence of abort and execute/apply requests", "why_tests_cant": "every interleaving", "anchors": ["ipyparallel/engine/kernel.py:IPythonParallelKernel.abort_request", "ipyparallel/engine/kernel.py:IPythonParallelKernel.dispatch_shell"]}
{"id": "C46", "title": "Engine gives up on a dead controller exactly after max misses", "statement": "An engine with max_heartbeat_misses = m > 0 shuts itself down exactly at the first monitor check at which m consecutive checks (not counting the very first check) saw no ping since the check before; receiving a ping resets the count; with m = 0 it never shuts itself down.", "quantifier": "every sequence of monitor periods and pings", "why_tests_cant": "every interleaving", "anchors": ["ipyparallel/engine/app.py:IPEngine._hb_monitor"]}
{"id": "C47", "title": "Launcher stop notifications fire exactly once", "statement": "Each on_stop callback runs exactly once, whether registered before or after the process stopped; an engine-set launcher reports stopped only when all its engines have stopped and reports a nonzero exit code if any engine failed.", "quantifier": "every order of registrations and engine exits", "why_tests_cant": "every interleaving", "anchors": ["ipyparallel/cluster/launcher.py:BaseLauncher.on_stop", "ipyparallel/cluster/launcher.py:BaseLauncher.notify_stop", "ipyparallel/cluster/launcher.py:LocalEngineSetLauncher._notice_engine_stopped"]}
{"id": "C48", "title": "Controller ports are used at most once and in the configured ranges", "statement": "With configured port ranges, the controller hands out each port at most once, only from the ranges, in order, and falls back to an ephemeral port only when they are exhausted.", "quantifier": "every range list and number of requests", "why_tests_cant": "all range lists", "anchors": ["ipyparallel/controller/app.py:IPController.next_port"]}
{"id": "C49", "title": "ReverseDict stays a bijection", "statement": "After any sequence of operations on the id<->uuid map, looking up an id gives the uuid and looking up the uuid gives the id; removing either removes both.", "quantifier": "every operation sequence", "why_tests_cant": "every history", "anchors": ["ipyparallel/util.py:ReverseDict"]}
{"id": "C50", "title": "Pure broker schedulers route replies back to the requester", "statement": "A multiplexed (direct) request is delivered to the named engine with the client's identity attached and the reply returned to precisely that client.", "quantifier": "every set of clients and engines, every message", "why_tests_cant": "all identity routings", "anchors": ["ipyparallel/controller/app.py:IPController.init_schedulers", "ipyparallel/client/client.py:Client._send", "ipyparallel/controller/hub.py:Hub.save_queue_request", "ipyparallel/controller/hub.py:Hub.save_queue_result"]}
{"id": "C51", "title": "A view's history is what was sent through it", "statement": "A call through a view adds to view.history exactly the message ids that this call sent, in their order, and nothing else, whatever the client sent before.", "quantifier": "every client history, every call (including one that sends nothing)", "why_tests_cant": "all histories; the ids are recovered by a negative slice of the client's history, whose edge case is the empty call", "anchors": ["ipyparallel/client/view.py:save_ids"]}
{"id": "C52", "title": "SSH engine sets start the first n configured slots", "statement": "Asked for n engines, an SSH engine set starts exactly the first n of the configured (host, slot) pairs, in the order the hosts are listed; starting the same set again starts the same engines.", "quantifier": "every list of hosts with every slot counts, every n, every restart", "why_tests_cant": "all host tables and counts; the table is mutated by the first start", "anchors": ["ipyparallel/cluster/launcher.py:SSHEngineSetLauncher.start"]}
{"id": "C53", "title": "The broadcast scheduler tree is well formed", "statement": "For every depth, every broadcast scheduler below the root gets its own address among the addresses the controller reserved (no two share one, none is left over), has exactly one parent, and the leaves take the 2^depth engine-facing addresses 0..2^depth-1 once each.", "quantifier": "every depth", "why_tests_cant": "unbounded depth; addresses are reserved level by level but started depth first", "anchors": ["ipyparallel/controller/app.py:IPController.init_hub", "ipyparallel/controller/app.py:IPController.launch_broadcast_schedulers"]}
{"id": "C54", "title": "Every scheduler event is processed in finitely many steps", "statement": "Whatever tasks, dependencies, engines and replies there are, processing one message or timer in the task scheduler terminates: failing a task, which re-examines the tasks depending on it and the queue and may fail further tasks, does not recurse for ever.", "quantifier": "every history and every dependency graph, including cyclic-looking ones", "why_tests_cant": "mutual recursion over an unbounded dependency graph and a queue that is modified while it is iterated", "anchors": ["ipyparallel/controller/task_scheduler.py:TaskScheduler.fail_unreachable", "ipyparallel/controller/task_scheduler.py:TaskScheduler.update_graph", "ipyparallel/controller/task_scheduler.py:TaskScheduler.maybe_run"]}
{"id": "C55", "title": "Resubmitting tasks", "statement": "A request to resubmit tasks is refused, and changes nothing, exactly if one of the named tasks has no record; otherwise every named task is queued once more under a new id (pending, with its own fresh record), the old record stays as it was except that it names the new id, and no other record changes.", "quantifier": "every history of the hub, every list of different task ids", "why_tests_cant": "all histories: the named tasks may be pending, finished, purged, resubmitted before, or created only by output", "anchors": ["ipyparallel/controller/hub.py:Hub.resubmit_task"]}
{"id": "C56", "title": "No engine idles while a task could run on it", "statement": "After every event, a task that was submitted and has neither been answered nor is on an engine cannot be sent anywhere at that moment: every registered engine has its maximum of tasks, or has already failed or refused this task, or is not among the task's targets.", "quantifier": "every history of submissions, registrations, deaths, replies, refusals, retries and timeouts; every scheme and high water mark", "why_tests_cant": "the scheduler examines the queue only on some events; every interleaving, queue content and load distribution matters", "anchors": ["ipyparallel/controller/task_scheduler.py:TaskScheduler.update_graph", "ipyparallel/controller/task_scheduler.py:TaskScheduler.maybe_run", "ipyparallel/controller/task_scheduler.py:TaskScheduler.handle_unmet_dependency"]}
{"id": "C57", "title": "Task timeouts", "statement": "A task submitted with a timeout that is waiting when its timer expires is answered with a TaskTimeout error then and there. No task is answered with a TaskTimeout error in any other way: not a task without a timeout, not a task that is on an engine or has been answered. A timer set before the task was last on an engine does nothing, even if the task (after a retry) waits again when it expires.", "quantifier": "every history of submissions, registrations, deaths, replies, refusals, retries and timer expiries, in every order", "why_tests_cant": "the timer may expire at any moment relative to every other event; a task may wait, run and wait again any number of times, with one timer each time", "anchors": ["ipyparallel/controller/task_scheduler.py:TaskScheduler.job_timeout", "ipyparallel/controller/task_scheduler.py:TaskScheduler.save_unmet", "ipyparallel/controller/task_scheduler.py:TaskScheduler.fail_unreachable"]}
{"id": "C58", "title": "Querying the hub's database", "statement": "client.db_query(query, keys) returns exactly the records that satisfy the query, one dictionary each, with the fields asked for (plus msg_id) or, without keys, every field except the buffers; each field has the value that is stored, dates and the frames of buffers included, whatever the number and the lengths of the buffers of the records.", "quantifier": "every set of records, query, list of keys, and every assignment of buffer lists to records, for both databases", "why_tests_cant": "the reply is one flat list of frames that the client cuts up by lengths; any combination of records with and without buffers and any choice of keys must be cut at the right places", "anchors": ["ipyparallel/controller/hub.py:Hub.db_query", "ipyparallel/client/client.py:Client.db_query", "ipyparallel/controller/dictdb.py:DictDB.find_records", "ipyparallel/controller/sqlitedb.py:SQLiteDB.find_records"]}
{"id": "C59", "title": "Output recorded by the hub", "statement": "The stdout and stderr the hub has recorded for a task, and gives to any client that asks for the result, are everything the task wrote, in order; the error, result and input are those reported last. This holds in whatever order the request, the reply and the output reach the hub, and output never changes what the hub knows of the request, the engine and the result, nor which tasks are pending or completed.", "quantifier": "every history of requests, destinations, replies and output messages of any number of tasks, in every order, with every setting of the database limits, for tasks that are not purged", "why_tests_cant": "output, requests and replies come over independent sockets: every interleaving is possible, including output before the request", "anchors": ["ipyparallel/controller/hub.py:Hub.save_iopub_message", "ipyparallel/controller/hub.py:Hub.save_queue_request", "ipyparallel/controller/hub.py:Hub.save_task_request", "ipyparallel/controller/hub.py:Hub._extract_record", "ipyparallel/controller/hub.py:empty_record"]}
{"id": "C60", "title": "Output collected by the client", "statement": "ar.stdout, ar.stderr and ar.outputs of a request are what the request wrote and displayed, in order and nothing else, one entry per request in the order of the requests; text that is overwritten by carriage returns may be left out. ar.wait_for_output() returns when, and only when, every request has its reply and the end of its output has been announced (or the reply says there is none); from then on the shown output never changes and the client keeps nothing about the request in its caches.", "quantifier": "every interleaving of output, idle messages and replies of any number of requests and of other sessions, every division of the text into messages, every schedule of purges", "why_tests_cant": "output and replies arrive over different sockets in any order, cut into messages at any place; late messages may arrive after everything is cleaned up", "anchors": ["ipyparallel/client/client.py:Client._dispatch_iopub", "ipyparallel/client/client.py:Client._handle_apply_reply", "ipyparallel/client/client.py:Client.create_message_futures", "ipyparallel/client/client.py:Client._send", "ipyparallel/client/asyncresult.py:AsyncResult.wait_for_output", "ipyparallel/client/asyncresult.py:AsyncResult._resolve_output"]}
{"id": "C61", "title": "The hub's record of a task", "statement": "The record the hub keeps of a task tells exactly the request that was submitted (header, content, metadata, label, all buffers, time, client), the engine it was last said to run on, and, once completed, the first result that arrived (status, metadata, times, all buffers) and its engine, in whatever order output, destinations and replies of this and other tasks reach the hub.", "quantifier": "every history of requests, destinations, results and output messages of any number of tasks, in every order, with every setting of the database limits, for tasks that are not purged or evicted", "why_tests_cant": "records are merged from messages of four independent sockets; every arrival order is a different merge", "anchors": ["ipyparallel/controller/hub.py:Hub.save_queue_request", "ipyparallel/controller/hub.py:Hub.save_task_request", "ipyparallel/controller/hub.py:Hub.save_queue_result", "ipyparallel/controller/hub.py:Hub.save_task_result", "ipyparallel/controller/hub.py:Hub.save_task_destination", "ipyparallel/controller/hub.py:init_record"]}
{"id": "C62", "title": "The cluster file", "statement": "After every operation on a cluster, after every notification that one of its components has stopped, and at every moment in between, the cluster's file exists exactly if a component (the controller or an engine set) is running, it lists exactly the running components with their ids and numbers of engines, and loading it from another program gives a cluster object that has exactly the living processes of those components, under the same ids.", "quantifier": "every history of starts, stops, restarts and failures of controllers and engine sets, every interleaving of the coroutines, every order of process exits and their notifications, clusters newly made or loaded from a file, local and single-process launchers", "why_tests_cant": "processes exit at any time, notifications come later, coroutines interleave at every await, and the file may be read at any of these moments", "anchors": ["ipyparallel/cluster/cluster.py:Cluster.update_cluster_file", "ipyparallel/cluster/cluster.py:Cluster.to_dict", "ipyparallel/cluster/cluster.py:Cluster.from_dict", "ipyparallel/cluster/cluster.py:Cluster._is_running", "ipyparallel/cluster/launcher.py:LocalEngineSetLauncher.from_dict", "ipyparallel/cluster/launcher.py:LocalProcessLauncher._reconstruct_process"]}
{"id": "C63", "title": "No process of a cluster is forgotten", "statement": "Every process that a cluster has started, or taken over from a cluster file, and that is alive, belongs to a component that the cluster object lists and can stop; so when the controller and all engine sets have been stopped, none of the processes is alive and the cluster file is gone. Generated engine set ids never replace an existing set, and restarting a set starts the number of engines it was started with.", "quantifier": "every history of starts, stops, restarts, failed starts and failed stops of any number of engine sets, every interleaving, every order of exits", "why_tests_cant": "operations are coroutines that may overlap in any way, and processes die in between", "anchors": ["ipyparallel/cluster/cluster.py:Cluster.start_engines", "ipyparallel/cluster/cluster.py:Cluster.stop_engines", "ipyparallel/cluster/cluster.py:Cluster.restart_engines", "ipyparallel/cluster/cluster.py:Cluster.start_controller", "ipyparallel/cluster/cluster.py:Cluster.stop_controller", "ipyparallel/cluster/cluster.py:Cluster._new_engine_set_id"]}
{"id": "C64", "title": "Calls, push and pull on an engine's namespace", "statement": "Executing a call on an engine returns what the function returns or raises there and leaves the engine's namespace as the function leaves it, without any trace of the engine's own temporary variables, whatever the function does and also when it raises, when its arguments cannot be unpacked or its result cannot be pickled; a Reference argument is the variable's value at that moment. A push assigns exactly the given names and changes no other variable; a pull returns the values of the names in the order asked for, changes nothing, and is a NameError for the first missing name.", "quantifier": "every namespace, every function (of namespace and arguments), every list of names and values, every message id", "why_tests_cant": "functions may look at, change or delete anything in the namespace; names may collide with temporary ones", "anchors": ["ipyparallel/engine/kernel.py:IPythonParallelKernel.do_apply", "ipyparallel/util.py:_push", "ipyparallel/util.py:_pull", "ipyparallel/client/view.py:DirectView.push", "ipyparallel/client/view.py:DirectView.pull"]}
{"id": "C65", "title": "Requests to an engine are executed in order; one reads what one has written", "statement": "Requests that a client sends to an engine through one view are executed exactly once each and in the order of sending, without waiting for earlier ones; an engine's namespace and replies are those of executing its requests one after the other, independent of what happens on other engines; so a pull that follows a push of the same client (also without waiting) returns the pushed value unless another request assigns the name, and a clear that follows a push removes the variable.", "quantifier": "every number of clients, queues and engines, every interleaving of sending and execution, every namespace", "why_tests_cant": "the order in which an engine takes messages of several clients and queues is up to the network", "anchors": ["ipyparallel/engine/kernel.py:IPythonParallelKernel.apply_request", "ipyparallel/engine/app.py:IPEngine.complete_registration", "ipyparallel/client/view.py:DirectView", "ipyparallel/client/client.py:Client.clear"]}
{"id": "C66", "title": "Control requests reach the engine, and its death is reported once", "statement": "With a nanny, every control request (clear, abort, shutdown, signal) that clients send to an engine gets at most one reply, and the reply says what happened: a signal is answered ok exactly if it was delivered to the engine's process (an unknown name or a dead engine is an error), any other request is answered by the engine's own reply after it executed it. Requests for the engine are executed at most once each in the order of sending; signals are delivered in the order of sending without waiting for a busy engine. While the engine lives every request gets its reply. When the engine's process ends the hub is told so, once, and never while the engine lives.", "quantifier": "all sequences of control requests, all interleavings of the nanny's callbacks, the engine and its death at any point", "why_tests_cant": "the order of messages in two directions and the moment of the engine's death are unbounded; races between the two ways of noticing the death happen rarely", "anchors": ["ipyparallel/engine/nanny.py: KernelNanny.dispatch_control, dispatch_parent, signal_request, wait_for_parent_thread, pipe_handler, finish, notify_exit", "ipyparallel/client/client.py: Client._send_control_request, send_signal"]}
{"id": "C67", "title": "A task is attempted at most retries+1 times", "statement": "A load-balanced task submitted with retries=r is sent to engines at most r+1 times, not counting the times an engine refuses it because of an unmet functional dependency; at most r attempts have come back (failed, or lost with a dead engine) before the client gets its reply. Without retries a task is attempted at most once.", "quantifier": "every configuration, every sequence of submissions, registrations, deaths, replies and timers", "why_tests_cant": "the number of attempts depends on the interleaving of engine deaths, failures and refusals", "anchors": ["ipyparallel/controller/task_scheduler.py: dispatch_result, handle_stranded_tasks, handle_unmet_dependency, submit_task", "ipyparallel/client/view.py: LoadBalancedView.retries"]}
{"id": "C68", "title": "Load-balanced apply from end to end, with functional dependencies", "statement": "A function applied with a load-balanced view is called only on an engine where, at that moment, all its functional dependencies (@depend, @require; the innermost first) hold: none returned False or raised; with @require all modules could be imported and the required objects are in the namespace. What the client gets for the task is the outcome of an execution of that very task and never a refusal, or an EngineError only if an engine to which it was sent is gone, or a failure only if the scheduler gave it up; it gets at most one reply. The function is called at most retries+1 times however often engines refuse the task or die. An engine's namespace persists from one execution to the next and nothing else changes it. No task is forgotten, also when engines die: once the scheduler has dealt with the dead engines and all others are idle, a task has its reply or every engine that is left and where it may run has tried it without success.", "quantifier": "all functions and dependencies (as functions of namespace and arguments), all submissions, all interleavings of engines, scheduler, deaths (also with replies under way) and timers", "why_tests_cant": "refusals, retries, deaths and messages under way combine in unboundedly many ways", "anchors": ["ipyparallel/controller/dependency.py: depend, dependent, require, _require", "ipyparallel/serialize/canning.py: CannedObject.get_object, _uncan_dependent_hook, can_dependent", "ipyparallel/engine/kernel.py: apply_request, do_apply, init_metadata, finish_metadata", "ipyparallel/controller/task_scheduler.py: TaskScheduler", "ipyparallel/client/view.py: LoadBalancedView._really_apply"]}
{"id": "C69", "title": "Waiting for a result, or for part of it", "statement": "ar.wait(return_when=...) divides the tasks into done and pending: each is in exactly one set and only finished tasks are in the first. Without a timeout it returns exactly when what was asked for has happened (all finished; at least one finished; one failed or all finished), and not later. ar.get() returns only the complete result: every task finished, the results in the order of submission, no remote error among them; what it raises is the error of these tasks, and TimeoutError only if a timeout was given and some task is unfinished. get(return_when=FIRST_EXCEPTION) raises a failed task's error without waiting for the others. Joining the parts given by split() gives a result for the same messages in the same order.", "quantifier": "all kinds of results, all task outcomes, all interleavings of the waiting thread with the io thread and its callbacks", "why_tests_cant": "the outcome depends on how the waiting thread interleaves with the callbacks of futures that complete in another thread", "anchors": ["ipyparallel/client/asyncresult.py: AsyncResult.get, wait, split, join, _resolve_result, _finalize_result", "ipyparallel/client/futures.py: multi_future"]}
{"id": "C70", "title": "Fetching results by id", "statement": "client.get_result(ids) gives a result object for exactly the tasks asked for, whether they are under way in this client, in its cache or known only to the hub. Getting a result from the hub returns for each id, in the order asked for, the value, reply or failure that the hub has recorded for that task, polls until none is pending, and raises only failures of these tasks (TaskAborted for aborted ones). result_status lists each id once, as pending only if the hub says so. A result object that owns its results takes them out of the client's cache and never touches other results.", "quantifier": "all lists of ids, all states of the client's cache, all sequences of hub states seen by the polls, all serialized values", "why_tests_cant": "the pairing of buffers with records and the loop over the local cache must be right for every combination of local, pending, failed and finished tasks", "anchors": ["ipyparallel/client/client.py: Client.get_result, result_status, _asyncresult_from_jobs", "ipyparallel/client/asyncresult.py: AsyncHubResult", "ipyparallel/controller/hub.py: Hub.get_results"]}
{"id": "C71", "title": "Control calls (clear, abort, shutdown)", "statement": "A blocking control call (client.clear, abort, send_signal, shutdown) asks every selected engine, and no other, exactly once, and returns only after every one of them has answered without an error; otherwise it raises an error that one of them sent: the first in the order of the targets (for shutdown: the last). When every engine asked has answered, the call ends. A non-blocking call returns a future whose value is the replies in the order of the targets. shutdown(hub=True) asks the hub only after every engine has answered, and closes the client only if all of them and the hub answered without error.", "quantifier": "all target lists, all replies, all orders of arrival of replies interleaved with the calling thread, calls with and without block, shutdown with and without hub and restart", "why_tests_cant": "the result depends on how the arrival of replies interleaves with the loop that waits for the engines one after the other", "anchors": ["ipyparallel/client/client.py: Client._send_control_request, clear, abort, shutdown, send_signal, _handle_control_reply"]}
{"id": "C72", "title": "Waiting for engines", "statement": "wait_for_engines(n) with block returns only when the client knows n engines (at some moment during the call), raises TimeoutError only if the timeout passed and fewer than n engines were known at that moment, and raises an engine error only when the engine monitor reported that the engines are gone; if enough engines are known when it is called it returns at once; once n engines are registered with the client and the timer has not run out, waiting ends.", "quantifier": "all histories of registration and unregistration notices, timers, engine monitor events and concurrent waiters", "why_tests_cant": "registrations arrive in another thread between any two steps of the caller", "anchors": ["ipyparallel/client/client.py: Client.wait_for_engines, _register_engine, _unregister_engine, _update_engines"]}
{"id": "C73", "title": "Scatter, gather and broadcast map through the engines", "statement": "A sequence scattered over engines and gathered again by the same client through the same kind of view comes back unchanged, without waiting in between, whatever other clients do with other variables and however the requests are interleaved. BroadcastView.map(f, *sequences) on sequences of matching length returns list(map(f, *sequences)) under the same conditions; if that raises, so does the result, with the same error from the first engine that failed; the variables used to send the sequences are gone afterwards.", "quantifier": "all sequences, numbers of engines, distributions, functions, other requests of this and other clients, and interleavings of the engines", "why_tests_cant": "the pieces travel as separate messages whose execution interleaves with those of other clients in unboundedly many ways", "anchors": ["ipyparallel/client/view.py: DirectView.scatter, gather, BroadcastView.map, _broadcast_map", "ipyparallel/client/map.py: Map", "ipyparallel/util.py: _push, _pull", "ipyparallel/engine/kernel.py: do_apply"]}
{"id": "C74", "title": "A load-balanced task is run at most once on each engine", "statement": "However often engines refuse a task, fail it or die with it, the scheduler sends it to each engine at most once, so no engine executes it twice; and once the client has the reply of a task, the task is not sent to any engine any more.", "quantifier": "every history of submissions, engines coming and going, replies, refusals, failures, late replies and timers", "why_tests_cant": "it must hold for every interleaving of retries, deaths and late replies", "anchors": ["ipyparallel/controller/task_scheduler.py:TaskScheduler.handle_unmet_dependency", "ipyparallel/controller/task_scheduler.py:TaskScheduler.dispatch_result", "ipyparallel/controller/task_scheduler.py:TaskScheduler.handle_stranded_tasks", "ipyparallel/controller/task_scheduler.py:TaskScheduler.maybe_run"]}
{"id": "C75", "title": "display_outputs shows the output of every task", "statement": "display_outputs() of a result prints the stdout and stderr of every task completely and once, in blocks below a header line [stdout:<engine>] or [stderr:<engine>] that begins a line and names the stream and the engine the text came from; every rich output is shown once, in order, below a label naming its engine, and the value of every task that has one; with result_only only the values.", "quantifier": "all results: any number of tasks and engines, any text, any outputs, each way of grouping", "why_tests_cant": "headers, newlines and merging depend on all earlier text; there are unboundedly many combinations", "anchors": ["ipyparallel/client/asyncresult.py:AsyncResult.display_outputs", "ipyparallel/client/asyncresult.py:AsyncResult._display_stream", "ipyparallel/client/asyncresult.py:AsyncResult._display_single_result"]}
{"id": "C76", "title": "Streaming output", "statement": "Inside `with ar.stream_output():` all output of each request is shown, what was captured before as well as what arrives, in order, exactly once, below headers that name the engine and the stream; in a notebook the display of a stream shows its whole text so far.", "quantifier": "all interleavings of the user's thread (entering, body, leaving) with the thread that receives output, all messages, any number of requests", "why_tests_cant": "it is a race of two threads; every interleaving matters", "anchors": ["ipyparallel/client/asyncresult.py:AsyncResult.stream_output", "ipyparallel/client/asyncresult.py:AsyncResult._iopub_streaming_output_callback", "ipyparallel/client/asyncresult.py:AsyncResult._display_stream", "ipyparallel/client/client.py:Client._dispatch_iopub"]}
{"id": "C77", "title": "The cluster manager lists the clusters that there are", "statement": "After ClusterManager.load_clusters() every cluster that has a loadable cluster file in the profile directories is listed under its profile and id; a listed cluster that is running or has not been started stays listed as the same object; a cluster that has been started and has stopped is no longer listed; nothing else is listed. new_cluster never replaces a listed cluster. clean_cluster_files removes all cluster, log and connection files of the directories, but never the file of a running cluster unless forced.", "quantifier": "all contents of the profile directories (running, dead, partly dead and broken cluster files), all states of the manager, all lists of directories", "why_tests_cant": "depends on every combination of files on disk, listed objects and living processes", "anchors": ["ipyparallel/cluster/cluster.py:ClusterManager", "ipyparallel/cluster/cluster.py:clean_cluster_files", "ipyparallel/cluster/cluster.py:Cluster.from_file", "ipyparallel/util.py:abbreviate_profile_dir"]}
{"id": "C78", "title": "Controller, engines and clients agree on their addresses", "statement": "Once a controller has started, the connection files name exactly the addresses it listens on and the key it uses. Every connection that a client or an engine makes from such a file, on any machine, ends at the controller's socket for that service and at no other; the broadcast connection of an engine is at the leaf of the scheduler tree through which messages for it are sent. A controller restarted with reuse, after a clean exit or a crash at any moment, has the same addresses and key as before. get_connection_info returns the information of the controller being started. Different cluster ids use different files.", "quantifier": "all configurations (interfaces, depths, port pools), all machines and locations, all engine ids, all contents of the files left by earlier runs and all crash points while they are written", "why_tests_cant": "depends on every combination of interfaces, machines, tree depths, engine ids and on the moment of a crash", "anchors": ["ipyparallel/controller/app.py:IPController.init_hub", "ipyparallel/controller/app.py:IPController.construct_url", "ipyparallel/controller/app.py:IPController.load_config_from_json", "ipyparallel/controller/app.py:IPController.init_schedulers", "ipyparallel/engine/app.py:IPEngine.complete_registration", "ipyparallel/engine/app.py:IPEngine.load_connection_file", "ipyparallel/client/client.py:Client.__init__", "ipyparallel/util.py:disambiguate_url", "ipyparallel/cluster/launcher.py:ControllerLauncher.get_connection_info"]}
{"id": "C79", "title": "The parallel magics do what their arguments and the configuration say", "statement": "%%px submits its cell exactly once, to the engines of --targets or else the view's, and leaves the configuration (view targets, blocking, streaming, signal) as it was however it ends. A blocking cell raises exactly if the remote execution failed; its outputs are streamed or displayed, never both, also on error and after Ctrl-C; Ctrl-C sends the configured signal once to exactly the engines the cell went to. A non-blocking cell returns its result, shows nothing and never raises. The result becomes the one %pxresult shows and -o stores. --local runs the cell locally once, after submitting. %pxconfig changes exactly the options given. Between two %autopx every cell is run on the engines, otherwise locally, and the shell is restored.", "quantifier": "all configurations, arguments, cells, outcomes of the execution, moments of Ctrl-C, and all sequences of cells for %autopx", "why_tests_cant": "the outcome depends on when Ctrl-C arrives, on what engines answer and on every combination of options; %autopx on the whole history of cells", "anchors": ["ipyparallel/client/magics.py:ParallelMagics.parallel_execute", "ipyparallel/client/magics.py:ParallelMagics.cell_px", "ipyparallel/client/magics.py:ParallelMagics.pxconfig", "ipyparallel/client/magics.py:ParallelMagics.result", "ipyparallel/client/magics.py:ParallelMagics.pxrun_nodes", "ipyparallel/client/magics.py:ParallelMagics._enable_autopx"]}
{"id": "C80", "title": "Life of an engine: listed exactly from its first heartbeat to its death", "statement": "An engine that registers and answers the heartbeat is announced to clients under the id it was granted and listed until its heart stops or it says goodbye; hub and engine agree on the id; each engine is announced at most once and removed at most once, after which it is never listed again. An engine from which nothing is heard for max_heartmonitor_misses + 2 beats is not listed once the hub has read the heart monitor's reports. An engine that gave up waiting for the hub, or was too slow for the hub, is never listed. Nothing but its own death removes an engine.", "quantifier": "all interleavings of engines starting, timing out, dying, beating, their nannies, the hub, the heart monitor and the messages between them; all numbers of engines", "why_tests_cant": "three processes with arbitrary delays between them; crashes at every point", "anchors": ["ipyparallel/engine/app.py:IPEngine.register", "ipyparallel/engine/app.py:IPEngine.complete_registration", "ipyparallel/engine/app.py:IPEngine.abort", "ipyparallel/engine/app.py:IPEngine._hb_monitor", "ipyparallel/controller/hub.py:Hub.register_engine", "ipyparallel/controller/hub.py:Hub.finish_registration", "ipyparallel/controller/hub.py:Hub.unregister_engine", "ipyparallel/controller/hub.py:Hub._load_engine_state", "ipyparallel/controller/heartmonitor.py:HeartMonitor"]}
{"id": "C81", "title": "Every request to the hub is answered exactly once, and a call gets the answer to its own request", "statement": "For each query a client sends to the hub (connection, queue status, load, results, history, db query, purge, resubmit, shutdown, become/stop dask, or an unknown type) exactly one message comes back, whatever raises while it is handled: the reply of that kind or a hub_error. It says ok exactly if everything the request needed succeeded. The waiting call gets the answer to its own request and no other, whichever way requests of several clients interleave and handlers are suspended; an outcome never changes; once nothing is under way every call has an outcome.", "quantifier": "all kinds of requests, all points at which handling can raise, all numbers of targets, ids and records, all interleavings of calls, of the hub, of suspended handlers and of deliveries, any number of clients", "why_tests_cant": "every operation of every handler may raise independently, and handlers that await interleave with later requests", "anchors": ["ipyparallel/controller/hub.py:Hub.dispatch_query", "ipyparallel/controller/hub.py:Hub.get_results", "ipyparallel/controller/hub.py:Hub.purge_results", "ipyparallel/controller/hub.py:Hub.resubmit_task", "ipyparallel/controller/hub.py:Hub.db_query", "ipyparallel/controller/hub.py:Hub.become_dask", "ipyparallel/client/client.py:Client._send", "ipyparallel/client/client.py:Client._send_recv", "ipyparallel/client/client.py:Client._dispatch_single_reply"]}
{"id": "C82", "title": "Commands sent to a remote shell arrive as they were sent, and their answers are read as they were given", "statement": "A command given to the remote shell sender (start, running, kill, exists, remove) calls the method of that name on the other side with exactly the arguments given, whatever characters (quotes, newlines, backslashes, braces, dollar signs, non-ASCII, undecodable bytes) they contain; starting starts exactly one process with that command line, the remote environment with exactly the given changes and that output file, and returns its pid; running and exists return the state of the other side and change nothing; kill delivers exactly that signal to exactly that process; remove removes exactly that file. This holds whatever the remote shell prints before and after, as long as it does not imitate the answer. The kind of the remote shell is recognised from its answer.", "quantifier": "all arguments (any JSON values), all states of the remote host, all texts printed by the remote shell before and after", "why_tests_cant": "the text passes through JSON, base64, a Python template, a shell and a regular expression, and has to survive for every string and every noise", "anchors": ["ipyparallel/cluster/shellcmd.py:ShellCommandSend._cmd_send", "ipyparallel/cluster/shellcmd.py:ShellCommandSend._get_pid", "ipyparallel/cluster/shellcmd.py:ShellCommandSend.initialize", "ipyparallel/cluster/shellcmd.py:ShellCommandSend.cmd_start", "ipyparallel/cluster/shellcmd.py:ShellCommandSend.cmd_kill", "ipyparallel/cluster/shellcmd_receive.py:ShellCommandReceiveBase._prepare_cmd_start", "ipyparallel/cluster/shellcmd_receive.py:ShellCommandReceivePosix"]}
{"id": "C83", "title": "Shutting down an executor waits for everything that was given to it", "statement": "When executor.shutdown() of a view returns (also on leaving `with view.executor:`), every call submitted before is finished, and every map started before has taken and submitted all of its inputs and all of its tasks are finished, whether or not its results were iterated over; and shutdown() does return, once the cluster has finished its tasks and the inputs are finitely many.", "quantifier": "all numbers of maps and calls, all numbers of inputs, limits and failures, all interleavings of the input threads, the cluster, the iterating user, other submitting threads and the thread that shuts down", "why_tests_cant": "each map has an input thread driven by the callbacks of finished tasks; what shutdown sees depends on the interleaving of these threads with the cluster and the user", "anchors": ["ipyparallel/client/view.py:ViewExecutor.shutdown", "ipyparallel/client/view.py:ViewExecutor.map", "ipyparallel/client/view.py:LoadBalancedView.imap", "ipyparallel/client/view.py:View.wait", "ipyparallel/client/view.py:save_ids", "ipyparallel/client/client.py:Client.wait"]}
{"id": "C84", "title": "Imports inside `with view.sync_imports()` happen on the engines too, and only they", "statement": "Every import statement in the body of `with view.sync_imports():` is performed locally and, each distinct absolute one once and in order, on every engine of the view; imports that the imported modules make themselves are not sent. A name bound by the statements is afterwards bound to the same thing on the engines as locally. A failure on an engine is raised at the end of the block. On leaving the block, normally or by an exception, importing works as before the block.", "quantifier": "all bodies of blocks, all trees of imports made by the imported modules (with failures and nested sync_imports blocks), all module worlds of the engines, all namespaces", "why_tests_cant": "the global __import__ is replaced, and put back, on every import of every frame and thread while the block is active; what is sent depends on the whole history of imports in the block and in the modules", "anchors": ["ipyparallel/client/view.py:DirectView.sync_imports", "ipyparallel/client/view.py:DirectView.importer"]}
{"id": "C85", "title": "The times an AsyncResult reports", "statement": "When an AsyncResult is ready, `wall_time` is the time from the earliest submission to the latest reception of a reply, and `serial_time` is the sum, over its tasks, of the time the engine spent on it; before, both raise TimeoutError. `elapsed` is the time since the first submission, and `wall_time` once ready; it is never negative and never decreases. The speed-up `serial_time / wall_time` is at most the number of engines, even if their clocks are wrong. Once all output has arrived, the times do not change any more.", "quantifier": "all histories of sends, replies (of kernels, of the scheduler, made up for dead engines, repeated) and outputs of any number of tasks; all readings of the client's clock that do not go back; all offsets of the engines' clocks; all time zones of the stamps", "why_tests_cant": "the stamps come from different machines, in different orders, from replies of different kinds; the monotonicity must hold between any two moments", "anchors": ["ipyparallel/client/asyncresult.py:AsyncResult.wall_time", "ipyparallel/client/asyncresult.py:AsyncResult.serial_time", "ipyparallel/client/asyncresult.py:AsyncResult.elapsed", "ipyparallel/client/asyncresult.py:AsyncResult.timedelta", "ipyparallel/client/client.py:Client._extract_metadata", "ipyparallel/util.py:compare_datetimes"]}
{"id": "C86", "title": "The life of `ipcluster start` and `ipcluster engines`", "statement": "`ipcluster start` (not daemonized) ends exactly when it gets SIGINT or SIGTERM, when its controller stops, or when its engines stop within `early_shutdown` seconds of the start; before it leaves its loop it has stopped the cluster, once, and its exit code is 0. `ipcluster engines` ends exactly when its engines stop or cannot be started (exit code 1); it passes every signal on to the engines, once. With `--daemonize` both exit, with code 0, as soon as the start has succeeded and leave the cluster running. `ipcluster start` is refused exactly if the cluster is already running; `ipcluster engines` adds engines without disturbing the running cluster; `ipcluster stop a b` stops each named cluster that is running.", "quantifier": "all interleavings of signals, exits of the controller and of engines, timeouts, ends (successful or not) of start and stop, and loop iterations, at any time; all clusters, files and processes of the machine", "why_tests_cant": "signals and exits of processes arrive at any time, also during the start and during the stop; tests cover a few orders", "anchors": ["ipyparallel/cluster/app.py:IPClusterEngines", "ipyparallel/cluster/app.py:IPClusterStart", "ipyparallel/cluster/app.py:IPClusterStop", "ipyparallel/cluster/launcher.py:BaseLauncher.on_stop"]}
{"id": "C87", "title": "Closing a client", "statement": "After a call of Client.close() (explicit, by leaving the context, by garbage collection or because the hub announces its shutdown) has returned, every request raises and has no other effect. Requests whose calls returned before the close began have been handed to their sockets, in order and once each. Every call of close() returns, in whatever thread and however many there are. Whoever waits for a result gets it or an exception.", "quantifier": "all interleavings of requests, replies and calls of close() by any number of threads (the client's IO thread included) with the steps of the event loop; every fair schedule for the liveness part", "why_tests_cant": "depends on the interleaving of threads, with a window of a few instructions; that nothing hangs is a claim about infinite schedules", "anchors": ["ipyparallel/client/client.py:Client.close", "ipyparallel/client/client.py:Client._stop_io_thread", "ipyparallel/client/client.py:Client._send", "ipyparallel/client/client.py:Client._io_main"]}
{"id": "C88", "title": "What the batch-system launchers submit, and which job they stop", "statement": "Starting n engines (or the controller) with a PBS, Slurm, SGE, LSF or HTCondor launcher writes a batch script and runs the submit command on it once. If the user gives no template, the script asks for exactly n processes and for the queue, output file (Slurm: account, QoS, time limit) that are set, and runs the configured command; a template of the user is filled in and otherwise left alone, with the values of `namespace` taking precedence. The job learns its profile directory, its cluster id and the variables of `environment`. start() returns the job id that the submit command printed, or fails; stop() and signal() then act on exactly this job, also after the launcher was saved and restored in another process.", "quantifier": "all batch systems, controllers and engine sets, configurations, numbers of processes, outputs of the submit command, and histories of starts, stops, signals, changes of properties and save/restore", "why_tests_cant": "The tests write the script of each launcher once, with n=1, and never parse it; templates, regular expressions and observers interact in too many combinations, and the outputs of real batch systems are arbitrary texts.", "anchors": ["ipyparallel/cluster/launcher.py: BatchSystemLauncher, PBSLauncher, SlurmLauncher, SGELauncher, LSFLauncher, HTCondorLauncher, write_batch_script, parse_job_id, start, stop, signal, to_dict, from_dict"]}
{"id": "C89", "title": "Command-line words survive quoting", "statement": "Whatever characters the words of a command contain (blanks, newlines, quotes, dollar signs, nothing at all), a POSIX shell that reads the text which the launchers make of it (in batch scripts and over SSH) gets exactly these words, in order, and expands nothing.", "quantifier": "all lists of words, all texts", "why_tests_cant": "The set of texts is infinite, and the difficult ones are combinations of quotes and special characters.", "anchors": ["ipyparallel/util.py: shlex_join", "ipyparallel/cluster/launcher.py: _program_changed, sshx"]}
{"id": "C90", "title": "Access to parts of an AsyncResult", "statement": "ar[k] and ar[a:b:c] of a result of several tasks are the results of exactly the tasks at these positions, iteration gives the results in order of submission without gaps, each as soon as it and its predecessors are there, and ends with what get() returns; nothing can be read by position, and successful() cannot be asked, before all tasks have finished. successful() says whether get() gives a value. Failures are raised, or are entries if return_exceptions. Metadata is readable at any time, one entry per task, by name or as attribute. get_dict() maps each engine to what it computed. abort() asks to abort exactly the tasks of the result, and not after it is ready.", "quantifier": "all results and return_exceptions, orders in which tasks finish, moments of the calls, indices and slices", "why_tests_cant": "What a call gives depends on the moment at which it meets the io thread; tests look at finished results.", "anchors": ["ipyparallel/client/asyncresult.py: AsyncResult.successful, __getitem__, __getattr__, __iter__, get_dict, abort, _check_ready, ready", "ipyparallel/client/client.py: Client.abort"]}
{"id": "C91", "title": "Waiting for sends and output respects its time limit", "statement": "wait_for_send(timeout) and wait_for_output(timeout) return as soon as the messages have left (the output is complete), give up when the limit is over and not before, and without a limit (None or negative) wait as long as it takes.", "quantifier": "all moments of the call, of handing over and of sending, all timeouts", "why_tests_cant": "The two waits share one limit; only particular timings show an error.", "anchors": ["ipyparallel/client/asyncresult.py: AsyncResult.wait_for_send, sent, wait_for_output"]}
{"id": "C92", "title": "SSH launchers go to the host, user and port they were told", "statement": "Engines of an SSH engine set are started on the host, as the user and through the port that their entry of `engines` names (`[user@]host[:port]`), or that the configured arguments name; each has its own identifier, and the connection files are sent once per entry. A launcher that is saved and restored goes to the same place.", "quantifier": "all tables of hosts, numbers of engines, configured arguments and overrides; all sequences of assignments to hostname, user and location", "why_tests_cant": "The launchers of one set share mutable lists, so that what is done for one host changes the others; tests use one host.", "anchors": ["ipyparallel/cluster/launcher.py: SSHEngineSetLauncher.start, SSHLauncher.start, _hostname_changed, _user_changed, to_dict, from_dict"]}
{"id": "C93", "title": "The end of a process started over SSH is noticed", "statement": "When a remote process has ended, the launcher announces it: once, not before, with its exit code, also if the connection failed in between.", "quantifier": "all interleavings of the end of the process, looks of the waiting thread, failures of ssh, calls of join() and the event loop", "why_tests_cant": "The order of thread, loop, remote end and connection failures is not under a test's control.", "anchors": ["ipyparallel/cluster/launcher.py: ssh_waitpid, SSHLauncher.wait_one, _wait, _start_waiting, join"]}
{"id": "C94", "title": "What a view keeps about its calls, and what uses it", "statement": "A call on a direct view sends one message to each selected engine, in order, and its result is a single one exactly if the target was an int. `view.history` lists the messages sent through the view in order, each once; `view.outstanding` after a call is exactly the view's own requests without an outcome. So `view.abort()` asks for all of these and no others, `view.wait()` returns exactly when all messages of the view have an outcome, `view.get_result(i)` is the i-th message of the view, and a failed call changes nothing.", "quantifier": "all sequences of calls (successful, failing, without targets, broadcasts, gathers, scatters) through any number of views of one client, with any replies, engine registrations and deaths during and between them", "why_tests_cant": "What a view keeps depends on everything the client has sent, on nested calls and on when replies arrive; tests use one view and successful calls.", "anchors": ["ipyparallel/client/view.py: save_ids, sync_results, View._sync_results, View.wait, View.abort, View.get_result, DirectView._really_apply, DirectView.execute, DirectView.gather, DirectView.run, BroadcastView._make_async_result, BroadcastView._really_apply", "ipyparallel/client/client.py: Client.wait"]}
{"id": "C95", "title": "Connection files are read whole, in time, and from the controller that runs", "statement": "`get_connection_info` of a controller launcher ends with exactly one of: the contents both connection files had, whole, at moments after the call; a TimeoutError, only if at some moment more than `timeout` after the call a file was missing; a RuntimeError, only if the controller had ended. It ends within a bounded number of its steps after the timeout, and after the end of the controller. A controller that writes each file once, each within half a second, gives a result that is its own if no file of another controller lies there. An engine or a client that reads its file gets contents the file had, gives up only after its whole waiting time with the file missing, and ends in bounded steps.", "quantifier": "all interleavings of the reader's steps with the opening, closing and removal of files by any number of controllers, the end of the controller and the passing of time; all timeouts", "why_tests_cant": "The outcome depends on when a file is opened and closed between two looks at it; tests start one controller in an empty directory.", "anchors": ["ipyparallel/cluster/launcher.py: ControllerLauncher.get_connection_info", "ipyparallel/engine/app.py: IPEngine.wait_for_url_file, load_connection_file, init_engine", "ipyparallel/client/client.py: Client.__init__", "ipyparallel/controller/app.py: save_connection_dict"]}
{"id": "C96", "title": "The SQLite task database keeps the records of earlier controllers", "statement": "A controller with the SQLite database uses the first of the names `table`, `table_1`, \u2026 under which there is no table or one of the current format (it always finds one), sees exactly the records of that table, and never changes a table of another format. It sees its own changes at once. After a crash at any moment the next controller with the same configuration uses the same table and finds what the changes up to some moment had made: no change half done, none kept without the earlier ones, and every change kept that was made two seconds or more before the event loop last looked at its timers. After the controller is stopped in the regular way, everything is kept.", "quantifier": "all contents of the database file, all histories of starts, calls, crashes and stops of any number of controllers one after another, all crash points and times, other programs adding tables", "why_tests_cant": "Durability is about every crash point and every earlier history of the file; the tests open one fresh in-memory or temporary database and close it.", "anchors": ["ipyparallel/controller/sqlitedb.py: SQLiteDB.__init__, close, _check_table, _init_db, add_record, update_record, drop_record, drop_matching_records", "ipyparallel/controller/hub.py: Hub._shutdown", "ipyparallel/controller/app.py: IPController.start, handle_signal"]}
{"id": "C97", "title": "The web service for clusters lists, creates, starts and stops exactly the clusters meant", "statement": "GET /clusters answers with exactly one entry for every cluster known (every cluster file in a profile directory, every cluster that runs or was created and not yet started, and the default cluster of a profile without files), each describing its cluster, running ones first, then the default profile, then clusters without id, then by name; every listed id can be read. POST /clusters creates a stopped cluster in the profile or directory meant, with the id given, else without id if the profile has no such cluster yet, else with a random one; it fails and changes nothing if there is one already or the body is unusable. POST /clusters/{key} starts a controller if there is none and that many more engines, records them in the cluster file, and refuses a number that is not an integer. DELETE /clusters/{key} answers when all processes have ended, and then the cluster and its file are gone. Unknown keys are answered with 404. No request changes another cluster. What JupyterLab lists, it can start and stop, and overlapping requests do not fail.", "quantifier": "all contents of the profile directories, all histories of requests, deaths of processes and overlapping deletions, all request bodies and keys", "why_tests_cant": "The service is concurrent (a deletion waits while other requests are handled) and its state is shared with files that other programs write; the tests send single requests in sequence.", "anchors": ["ipyparallel/nbextension/handlers.py: ClusterHandler.cluster_model, ClusterListHandler.get, post, ClusterActionHandler.get, post, delete, default_handlers", "ipyparallel/cluster/cluster.py: ClusterManager, Cluster.start_cluster, stop_cluster, update_cluster_file", "lab/src/clusters.tsx: _startById, _stopById"]}
{"id": "C98", "title": "Waiting with a progress bar", "statement": "ar.wait_interactive(interval, timeout, return_when) returns only when what was asked for has happened (all tasks finished; one finished; one failed or all finished) or the timeout has passed, at most one interval late; with a timeout and a positive interval it makes at most timeout/interval + 1 rounds; once what was asked for has been noticed it makes no further round, and none if the result is ready at the call. A wrong return_when is refused. The bar never goes back, never exceeds the number of elements, always shows the number of elements whose reply had come at some moment of the call, and is full when all tasks are finished. client.wait_interactive() waits for all requests that have output, and returns at once if there are none. When the timeout has passed TimeoutError is raised (as documented), not earlier and not an interval later.", "quantifier": "all kinds of results, task outcomes, arguments, and interleavings of the waiting thread with the io thread and its callbacks, all delays", "why_tests_cant": "It depends on when replies come relative to the rounds and to the callbacks; tests wait once for a short task.", "anchors": ["ipyparallel/client/asyncresult.py: AsyncResult.wait_interactive, progress, wait, ready, _count_chunks", "ipyparallel/client/client.py: Client.wait_interactive, _send"]}
{"id": "C99", "title": "The MongoDB task database behaves like the others", "statement": "After any history of additions, updates and deletions the database has the same ids as a plain map from ids to records, with the same values; only the addition of an id that is there raises. find_records gives exactly the records that satisfy every condition, with exactly the requested keys and msg_id; $glob gives the records whose field matches the pattern; no $glob reaches the server, and queries without it reach it unchanged, however deep. drop_matching_records removes exactly the records that find_records gives for the same query. The history lists the ids in the order of submission. Queries are answered as DictDB answers them.", "quantifier": "all histories of calls, all contents, all queries", "why_tests_cant": "All contents and all queries; the tests need a MongoDB server and are skipped without one.", "anchors": ["ipyparallel/controller/mongodb.py: MongoDB.add_record, get_record, update_record, drop_record, drop_matching_records, find_records, get_history, _translate"]}
{"id": "C100", "title": "Launcher classes are found again", "statement": "A launcher class can be chosen by its registered abbreviation in any case, by its full name, or as the class itself, and nothing but a launcher class is accepted; find_launcher_class raises ValueError exactly for a kind that is neither 'engine' nor 'controller' and KeyError exactly for a name that is not registered. A cluster that is saved and loaded again has the launcher classes it had, and loading does not change the file.", "quantifier": "all sets of installed launchers and entry points, all names and values, all clusters", "why_tests_cant": "What other packages install is open; the tests check the shipped names only.", "anchors": ["ipyparallel/cluster/launcher.py: find_launcher_class, abbreviate_launcher_class", "ipyparallel/traitlets.py: Launcher.validate, Launcher.load_entry_points", "ipyparallel/cluster/cluster.py: Cluster.to_dict, Cluster.from_dict", "pyproject.toml: entry points"]}
{"id": "C101", "title": "_sync methods do what the coroutine does", "statement": "Every coroutine method x of a Cluster or ClusterManager has a method x_sync, listed by dir(), and nothing else has one. x_sync runs the coroutine exactly once and returns its value or raises its exception, with or without a running event loop in the calling thread, whatever calls other threads make at the same time; it raises no errors of its own, and it returns when the coroutine ends.", "quantifier": "all class hierarchies and names; all outcomes of coroutines, all numbers of calls and threads, all interleavings", "why_tests_cant": "Interleavings of several threads with the background loop; the tests call one after the other.", "anchors": ["ipyparallel/_async.py: AsyncFirst.__getattr__, __dir__, _synchronize, _in_thread, _thread_main, _asyncio_run"]}
{"id": "C102", "title": "Windows HPC jobs say what was asked for", "statement": "The job file written for the Windows HPC scheduler is well-formed XML that, read back, has exactly the attributes, tasks, command lines and environment variables of the job; an engine set of n engines is a job of n tasks that run the engine command with its arguments in the profile directory and know their cluster; the id used to cancel the job is the one the scheduler gave.", "quantifier": "all values of the traits and of the environment, all numbers of engines, all outputs of the submit command", "why_tests_cant": "Values of arbitrary characters must survive the escapes and the textual replacement of the ordering prefixes; there is no test of these jobs at all.", "anchors": ["ipyparallel/cluster/_winhpcjob.py: as_str, indent, WinHPCJob, WinHPCTask, IPEngineTask", "ipyparallel/cluster/launcher.py: WindowsHPCLauncher, WindowsHPCControllerLauncher, WindowsHPCEngineSetLauncher"]}
{"id": "C103", "title": "Dates and strings in records survive JSON", "statement": "Headers, metadata and contents that are stored in the SQLite database, sent to the hub in a query or fetched from it come back as they were: datetimes as the same datetimes, strings as the same strings. A record can be read whatever other records contain.", "quantifier": "all nested values, all strings and all datetimes, all sets of records", "why_tests_cant": "Whether a string is taken for a date depends on its characters; tests use a few headers.", "anchors": ["ipyparallel/util.py: extract_dates, _parse_date, ISO8601_PAT, ensure_timezone, _ensure_tzinfo", "ipyparallel/controller/sqlitedb.py: _adapt_dict, _convert_dict, SQLiteDB.find_records", "ipyparallel/client/client.py: Client.db_query, Client.result_status", "ipyparallel/controller/hub.py: Hub.db_query"]}
{"id": "C104", "title": "queue_status reports the engines asked for", "statement": "Client.queue_status(targets, verbose) returns, for 'all', every engine of the hub, and otherwise exactly the engines that the targets name, each under its integer id, with the messages waiting, completed and running there (or their numbers), and the unassigned tasks; for a single engine, named as anywhere by its id or from the end, it returns this engine's entry. An engine the hub does not have raises IndexError.", "quantifier": "all target arguments, all sets of engines, all states of the hub and all its histories", "why_tests_cant": "The ids travel as strings of JSON keys and are turned back; all ids, duplicates and negative indices are needed.", "anchors": ["ipyparallel/client/client.py: Client.queue_status, Client._build_targets", "ipyparallel/controller/hub.py: Hub.queue_status, Hub._validate_targets", "ipyparallel/util.py: int_keys"]}
{"id": "C105", "title": "Log messages forwarded to the log watcher are shown with level and topic", "statement": "With a log_url, engines and controller forward each log record to iplogger, which logs it at the record's level, under the name of the sender (engine.<id>, engine or controller), with the record's message; setting log_url does not keep an engine from starting.", "quantifier": "all senders and engine ids, all levels, messages and subtopics", "why_tests_cant": "The level is found by splitting a topic that is made of arbitrary names; all names, levels and texts are needed.", "anchors": ["ipyparallel/apps/logwatcher.py: LogWatcher", "ipyparallel/engine/log.py: EnginePUBHandler", "ipyparallel/engine/app.py: forward_logging", "ipyparallel/controller/app.py: forward_logging"]}
{"id": "C106", "title": "The joblib backend gives back what it made, and nothing else", "statement": "A joblib backend on a given view never closes the view's client and takes work at any time; a backend without a view connects to the default cluster, or starts one, and terminate closes the client it opened and stops the cluster and engines it started, and nothing that was there before; after terminate, and so in the next Parallel call of the same context, it can be used again; a constructor that raises leaves nothing running.", "quantifier": "all sequences of making, using and terminating any number of backends, all failures of the constructor's steps", "why_tests_cant": "joblib terminates and reuses backends in any order; all histories and points of failure are needed.", "anchors": ["ipyparallel/client/_joblib.py: IPythonParallelBackend", "ipyparallel/joblib.py: register", "ipyparallel/client/view.py: LoadBalancedView.register_joblib_backend"]}
{"id": "C107", "title": "A CompositeError accounts for every error", "statement": "The text of a CompositeError has its message and, in order, engine, name and value of each of its first four errors, and the number of the others; its traceback has the whole traceback of each of the first four and the number of the others; with at most four errors nothing is left out or announced. Every error, shown or not, can be rendered and raised by its index, from the front or from the end, with its name, value, traceback and engine, and any other index raises IndexError. While output is streamed each error prints its engine, the first four their traceback, the others a line with name and value.", "quantifier": "all numbers of errors, all names, values, tracebacks and engines, all indices", "why_tests_cant": "Boundary at the limit and indices on both sides for every number of errors and all texts.", "anchors": ["ipyparallel/error.py: CompositeError, RemoteError", "ipyparallel/client/asyncresult.py: AsyncResult.stream_output (errors)"]}
{"id": "C108", "title": "A `with Cluster()` block gives back the cluster and the client", "statement": "`with Cluster() as rc` and `async with` start the cluster and connect a client; however the block goes (engine sets that die or are added, engines that are shut down, clients opened or closed), after it the controller and all engine sets are stopped and rc is closed, while other clients are as they were; if entering raises, or stopping an engine set does, nothing goes on running.", "quantifier": "all courses of the block, all numbers of engines, all steps that fail, both kinds of block", "why_tests_cant": "All histories of engines and clients in the block and all failing steps are needed.", "anchors": ["ipyparallel/cluster/cluster.py: Cluster.__enter__, __exit__, __aenter__, __aexit__, start_and_connect, stop_engines, stop_controller", "ipyparallel/client/client.py: Client.__len__"]}
