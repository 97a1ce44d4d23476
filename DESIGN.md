# A Lean 4 model of ipyparallel — design

Source modelled: `/repo` (ipython/ipyparallel, pinned). Everything cited as `file:lines` is relative to `/repo/ipyparallel`.

## Trusted base

* Lean 4.33.0's kernel. The theorems depend on at most `propext`, `Classical.choice`, `Quot.sound`; the list per theorem is at the end of this
  file (generated by `tools/axioms.py` from `#print axioms`). There are no axioms of our own and no compiled evaluation
  (`decide`/`decide +kernel`, which appear only in examples and witnesses of violations, are checked by the kernel).
* Our reading of the Python text. Nothing was executed: each definition of the model cites the lines it models,
  and states its simplifications in its doc comment or in the header of its module.
* Assumed library behaviour:
  * Python `list`/`dict`/`set`/`deque` semantics (dicts are insertion ordered; the iteration order of sets is never relied on except where stated);
  * pickle copies trees faithfully (`pickle.loads(pickle.dumps x) = x` for picklable `x`);
  * ZeroMQ delivers each message at most once and in order per connection; ROUTER sockets and `MonitoredQueue` as documented;
  * `uuid4` message ids and engine identities are fresh (hypothesis `Fresh`/`FreshIds`/`FreshNews` where needed);
  * `concurrent.futures.Future` callbacks fire once on completion; tornado's loop runs callbacks one at a time (the controller processes are single threaded);
  * SQLite's three-valued logic and comparison by storage class; IEEE rounding is monotone (only for the `weighted` scheme).

## Method

Each component is a set of small total functions that mirror the Python branch by branch; exceptions are values
(when an exception escapes after a partial mutation, the partially mutated state is what the model returns).
Stateful components are `step : State → Event → State × List Out` (or a transition relation, for `imap`), and properties are proved for *every* list
of events (every schedule, crash point, order of arrival) by induction on it. Specifications (`Spec.lean` files or `Spec` sections) do not mention the model's helpers:
they are functions of the inputs and of the observable trace only.

A property that the code violates in some corner is `partial`: the violation is proved on a concrete history or for all states (`…_violated`,
`Sched/Violations.lean`), the theorem with the suffix `_partial` has the weakest hypothesis we found, and the full statement stays in `properties.jsonl`.
Beside each theorem there is an `example` in which a concrete non-trivial case meets its hypotheses.

Seeded bugs: `seeded/LOG.jsonl`, one line per edit of the model (old and new text, the claim it breaks, what failed, what was tightened). The edits are applied to a copy outside `/verif`.

## What is modelled

| file | modelled | in | not modelled |
|---|---|---|---|
| `client/map.py` | `Map`, `RoundRobinMap` (all) | `Map/` | numpy branches of `concatenate`/`joinPartitions` |
| `client/remotefunction.py` | `ParallelFunction.__call__`, `map` | `Map/` | decorators, remote display |
| `client/view.py` | scatter/gather, `BroadcastView.map`, flags, dependencies, `imap`, `save_ids`, `ViewExecutor`, `sync_imports` | `Map/`, `View/` | execute/run/push/pull wrappers, magics |
| `client/asyncresult.py`, `client/futures.py` | `multi_future`, `get`, `wait`, `split`, `join`, iteration, progress, `wall_time`, `serial_time`, `elapsed`, `get_dict`, `AsyncHubResult` | `Async/`, `Client/Fetch`, `Client/Output*` (`wait_for_output`, metadata), `Client/Display*` (`display_outputs`), `Client/Stream*` (`stream_output`, two threads) | timing properties, interactive waiting, representations of values |
| `client/asyncresult.py`, `client/client.py` (`wait_interactive`) | the loop with its clock, `progress`, the client's method without jobs | `Async/Interactive*.lean` (on `Async/Wait.lean`) | tqdm itself and the choice of widget, the client's method with jobs |
| `error.py` | `collect_exceptions`, composite errors | `Async/` | traceback rendering |
| `client/client.py` | request bookkeeping, replies, engine (un)registration, `wait`, `_build_targets`, `purge_local_results`, `abort`, resubmit's records, `_dispatch_iopub`, `db_query`, `get_result`, `result_status`, `clear`/`abort`/`shutdown`, `wait_for_engines` | `Client/`, `Engine/`, `Hub/` | connection set-up, comm messages, the atexit logic |
| `controller/dependency.py` | `Dependency` (all); the decorators: `LB/` | `Dependency/` | |
| `controller/task_scheduler.py` | everything from line 22 to the end: schemes, job objects, all handlers, the queue, the dependency graph | `Sched/` | message parsing and signatures, logging, curve keys; real time (timers are events) |
| `controller/scheduler.py` | the sets of known ids | `Sched/` | `append_new_msg_id_to_msg` |
| `controller/broadcast_scheduler.py` | all handlers; the tree built by `controller/app.py:811-821, 997-1075` | `Broadcast/` | `use_threads` mode (class-level dicts shared between schedulers) |
| `controller/heartmonitor.py`, `engine/app.py:_hb_monitor` | beats, responses, failures, new hearts | `Heart/` | the heart process, zmq devices |
| `controller/hub.py` | registration, state file, queue/task notifications, `queue_status`, `get_results`, `purge_results`, `resubmit_task`, `save_iopub_message`, `db_query` | `Hub/` | shutdown, connection requests |
| `controller/dictdb.py` | records, queries, culling (all but `$all`, `$glob`) | `DB/` | |
| `controller/sqlitedb.py` | rendering of queries, record operations | `DB/Sqlite*` | table migration, JSON/pickle columns, threads |
| `serialize/serialize.py`, `serialize/canning.py` | canning, buffers, `serialize_object`, apply messages | `Serialize/` | byte formats, `CannedClass` for `__main__`, `can_map` additions, dill, cyclic objects |
| `engine/kernel.py` | abort handling, order of execution | `Engine/` | executing code |
| `cluster/launcher.py` | `on_stop`/`notify_stop`, engine sets, SSH placement | `Launcher/` | processes, signals, SSH commands, batch systems |
| `cluster/cluster.py` | `Cluster`: start, stop, restart, the file, loading it; `ClusterManager`, `clean_cluster_files` (`Cluster/Manager*`) | `Cluster/` | configuration, connecting clients, failures of the file system |
| `engine/kernel.py`, `util.py` | `do_apply`, `clear_request`, `_push`, `_pull`; `DirectView.push/pull` | `Namespace/` | names that are not identifiers, code of `execute` (arbitrary), traceback formatting |
| `controller/app.py`, `traitlets.py:PortList` | port pools, broadcast tree, monitored queues | `Ports/`, `Broadcast/Tree`, `Mux/` | configuration loading, processes |
| `util.py` | `ReverseDict`, `select_random_ports` | `Util/`, `Ports/` | network helpers |
| `engine/nanny.py` | `dispatch_control`, `dispatch_parent`, `signal_request`, `wait_for_parent_thread`, `pipe_handler`, `finish`, `notify_exit` | `Nanny/` | starting of the subprocess, authentication, malformed messages, socket options |
| `controller/dependency.py`, `serialize/canning.py`, `engine/kernel.py` | `depend`, `dependent`, `require`, `_require`, `_uncan_dependent_hook`; the load-balanced path: view → scheduler (`Sched/`) → engine (`Namespace/`) → scheduler → client, with messages under way and crashes | `LB/` | several clients (C50), aborts (C45), failure to restore a required object, the import system (a parameter) |
| `controller/app.py`, `engine/app.py`, `client/client.py`, `util.py`, `cluster/launcher.py` | connection files, `construct_url`, `disambiguate_url`, bound sockets, `get_connection_info` | `Connect/` | SSH tunnels, curve keys, sending of files |
| `client/magics.py` | `parallel_execute`, `px`, `cell_px`, `result`, `pxconfig`, `autopx` | `Magics/` | argument parsing, printing, IPython's `run_cell` |
| `engine/app.py` (life) | `register`, `complete_registration` (status, id, start of the heart), `abort`, `_hb_monitor`'s goodbye, composed with `Hub/Reg` and `Heart/` | `Life/` | sockets, kernel start, MPI delay, nanny internals |
| `controller/hub.py` (queries), `client.py` (`_send_recv`) | `dispatch_query` and all of `query_handlers` as sequences of operations that may raise; `_send`, `_really_send`, `_dispatch_single_reply`, futures | `HubQ/` | what the operations compute (other hub models); loss of messages; closing of clients; exit of the hub |
| `client/client.py` | `close`, `_stop_io_thread`, `_io_main`, `_send` as interleaved steps of threads and event loop | `Client/Close*.lean` | tornado's and asyncio's loop are assumed as described in the file; unconnected clients, `linger` |
| `cluster/shellcmd.py`, `cluster/shellcmd_receive.py` | JSON text (`json.dumps` with ASCII escapes, `json.loads`), base64, `str.format` of the program template, reading of the program on the other side, the POSIX receiver on a world of processes, environment, signals and files, `findall` of the answers, recognising the shell | `Shell/` | Windows receivers and the breakaway workaround, `check_output*`, `has_python`, `cmd_start_python_*`, floats in arguments, the quoting of the python path by ssh |
| `cluster/app.py` | `IPClusterStart`, `IPClusterEngines`: the loop, signals, watching, `early_shutdown`, `--daemonize`; the check for a running cluster; `IPClusterStop` with ids | `Cluster/App*`, `Cluster/Commands.lean` | configuration, logs, `ipcluster list`/`clean`/`nbextension` (`clean` is C74's function), `SIGUSR*` |
| `cluster/launcher.py` (batch systems), `util.py` (`shlex_join`) | `BatchSystemLauncher` and its ten leaf classes, function by function | `Launcher/Batch*.lean`, `Launcher/Quote.lean` | the batch systems; `get_output`; `\w`, `\d` beyond ASCII; Python expressions in templates |
| `client/asyncresult.py` (access) | `successful`, `__getitem__`, `__getattr__`, `__iter__`, `get_dict`, `abort`, `wait_for_send`, `wait_for_output`, `Client.abort` (the ids) | `Async/Access*.lean` | values that are neither lists nor tuples are not subscriptable; parsing of dates; time is counted in natural numbers and computing takes none |
| `cluster/launcher.py` (SSH) | `SSHLauncher` (hostname, user, location, port, restore, waiting), `SSHEngineSetLauncher.start`, `ssh_waitpid`, `wait_one`, `_wait`, `join` | `Launcher/Ssh*.lean` | the commands sent (C64, C82), files, `sshx` (unused), overrides other than `ssh_args`/`scp_args`; assumes that a `List` trait without element type keeps the list object it is given (traitlets) |
| `client/view.py` (calls) | `save_ids`, `sync_results`, `_sync_results`, `wait`, `abort`, `get_result`, `DirectView._really_apply`/`execute`/`gather`/`run`, `BroadcastView._make_async_result`/`_really_apply`; `Client.wait` with ids | `View/Calls*.lean` (on `Client/Model.lean`) | overlapping calls of several threads (C51), what is in the messages (C38, C64), `queue_status`/`purge_results`/`shutdown` wrappers |
| `cluster/launcher.py`, `engine/app.py`, `client/client.py`, `controller/app.py` (connection files) | `get_connection_info`, the waiting loop of engines and of clients, the write in `save_connection_dict` as open/close | `Connect/Files*.lean` | contents of the files (C67, C93), remote files (C92) |
| `controller/sqlitedb.py` (file) | `__init__` (table and commit timer), `close`, `_check_table`, `_init_db`; the end of the controller in `controller/app.py`, `hub.py` | `DB/Persist*.lean` (on `DB/Sqlite.lean`) | SQLite's journal, locks between two controllers at once, case folding and quotes in table names, where the file is |
| `controller/mongodb.py` | all calls, `_translate` on nested data; the server and pymongo by their documentation | `DB/Mongo*.lean` | connection, indexes, arrays in conditions, `$all`, regular expressions of the user |
| `cluster/launcher.py` `find_launcher_class`, `abbreviate_launcher_class`; `traitlets.py` `Launcher`; launcher classes in `Cluster.to_dict`/`from_dict`; entry points of `pyproject.toml` | all branches | `Cluster/Classes*.lean` | import of modules (classes are attributes of the module they name), case of non-ASCII letters, the help text |
| `_async.py` (file) | names of the wrappers, both ways of running, the background thread with every access of a shared attribute as a step | `Async/SyncWrap*.lean` | tornado's and asyncio's inside (a loop runs its callbacks in order, coroutines end in any order), attributes of instances |
| `cluster/_winhpcjob.py`, `WindowsHPC*Launcher` | jobs, tasks, the XML text character by character, the job id, the arguments | `Cluster/WinHPC*.lean` | ElementTree by its documentation; running the commands; the encoding of the file; uuid in file names |
| `util.py` dates, `sqlitedb.py` `dict` columns | the pattern character by character, `extract_dates`, writing and reading a column | `DB/Dates*.lean` | `json` (keeps what has a form in JSON), `dateutil` on strings that match (fields as written), `tzlocal` as a function, non-ASCII digits |
| `Client.queue_status`, `util.int_keys` | from the targets to the returned dict | `Client/QueueStatus*.lean` | sockets (C81), `float` keys of `int_keys` |
| `apps/logwatcher.py`, `engine/log.py` | LogWatcher whole, EnginePUBHandler, and of pyzmq PUBHandler.emit and setsockopt's type check | `Apps/LogWatcher*.lean` | sockets, prefixes of SUB subscriptions, traits |
| `client/_joblib.py` | constructor with its failures, terminate, apply_async's acceptance, as a system of many backends | `Client/Joblib*.lean` | the callback, batching, joblib itself (its terminate at the end of each Parallel call is an event) |
| `error.py` (texts), errors in `stream_output` | `__str__`, `render_traceback`, `raise_exception` of RemoteError and CompositeError, the streaming limit | `Async/ErrorText*.lean` | `AlreadyDisplayedError`, `__repr__`, infos with missing keys; `splitlines` is a parameter |
| `cluster/cluster.py` (blocks) | `__enter__`/`__exit__` and their async forms, `start_and_connect`, `stop_engines`, `stop_controller` with the steps that raise | `Cluster/Context*.lean` | the cluster file (C72), output files, the steps within a start (C95) |
| `nbextension/handlers.py`, `lab/src/clusters.tsx` (addresses) | `cluster_model`, list/create/read/start/delete handlers, the address pattern; `start_cluster`, `stop_cluster`, `update_cluster_file` as the handlers use them | `Cluster/Web*.lean` (on `Cluster/Manager.lean`) | authentication, the steps within a start (C95), launcher classes in the models, extra fields of bodies; escaping of addresses by other clients |
| `controller/hub.py` (recording, over SQLite) | the handlers of `Hub/Capture.lean` with `SQLiteDB` | `Hub/CaptureSql*.lean` (on `DB/Sqlite.lean`) | as for `Hub/Capture.lean`; purges of more than one id (C32) |
| everything else (`nbextension`, the Windows half of `shellcmd*`) | — | | not modelled |

## Plan and outcome per property

| property | modelled | how proved |
|---|---|---|
| C01–C03 | partitions of lists | arithmetic on slices; induction on the number of parts |
| C04–C06 | `ParallelFunction` + reconstruction of the map result | reduction to C01/C03; `map`/`zip` commute with slices |
| C07 | scatter/gather | corollary of C01/C03 |
| C08–C11 | asynchronous results | induction over completion schedules |
| C12 | `imap` as a transition system of three actors | invariant for all interleavings; decreasing measure; no deadlock |
| C13–C14 | `Dependency` | decision logic; quantification over all extensions of a history |
| C15, C22 | loads | trace invariant: load = unanswered tasks |
| C16–C18 | sending | each `send` in the trace justified by its prefix; handlers decomposed into guarded micro-steps (`Sched/Micro`) |
| C19–C20 | where every task is | Hoare triples over all mutually recursive handlers (`Sched/Loc*`) with a ghost state; with dependencies, a second invariant ties the dependency graph to the waiting tasks (`Sched/Link*`), so that no `KeyError` can lose one |
| C21 | the scheduler's own errors | trace invariant (`Sched/Fail*`); completeness: what one pass over the queue leaves (`Sched/Sweep*`); violations on witnesses |
| C23 | order of sending | simulation of the queue by the list of submissions (`Sched/Fifo*`) |
| C54 | recursion of the handlers | the number of unremoved jobs decreases (`Sched/Fuel`): the model's fuel never runs out |
| C56 | idle engines | invariant "every queued task is barred from every engine with room" (`Sched/Work*`); with dependencies: `Sched/Sweep*` |
| C57 | task timeouts | the event `jobTimer m t` may occur at any time for any scheduled timer; frame relation for everything but `save_unmet` and `job_timeout`, invariant "a waiting task with a timeout has a timer with its current number, and every timer has at most that number" (`Sched/Timer*`) |
| C24–C25, C53 | the broadcast tree | structural induction on paths; invariant over all arrival orders |
| C26–C27, C46 | heartbeats | refinement to a miss counter per heart |
| C28–C29 | registration, state file | invariant (`ids < counter`); crash points enumerated as events |
| C30–C32, C55 | hub bookkeeping | invariants over notification histories |
| C58 | packing and unpacking of query replies (`Hub/Query*`) | induction on the list of records with the frames as accumulator; composed with C33/C34 |
| C61 | the same record machine | projection to the record of one task (`look_step`), induction over the rest of the history |
| C59 | output messages in the hub's record machine (`Hub/Capture*`) | invariant "the record's streams are the text so far"; simulation with the history without output |
| C60 | the client's metadata objects on a heap (`Client/Output*`), the regular expression `_cr_pat` (`Client/Cr`) | invariant per request (in the caches or gone) over all histories; induction on texts for the collapse |
| C33–C36 | databases | refinement to a finite map; agreement of query evaluators on a fragment |
| C37–C39 | serialization | structural induction on value trees |
| C40–C44, C51 | client and views | state machine invariants / decision logic; programs with nested `with` blocks |
| C45 | engine aborts | invariant over request/abort histories |
| C47, C52 | launchers | invariant over histories of starts, stops, registrations |
| C62, C63 | a `Cluster`, its launchers on a heap, its file, the machine's processes (`Cluster/`); events are the code between two awaits | invariant "the file lists the running components with the processes they had at its last update"; ownership invariant for processes; loading = inverse up to dead processes |
| C64, C65 | a namespace is a dict, a Python function an arbitrary function of namespace and arguments (`Namespace/`); clients, FIFO channels per queue, engines | direct computation on dicts; freshness of push's temporary name by the pigeonhole principle; executed ++ waiting = sent by induction over every history; reading one's writes from the order and the sequential execution | 
| C66 | nanny, engine, queues between them, death of the process as an event (`Nanny/`) | invariant over every history: taken requests, executed ++ under way = taken, replies and answers under way are a permutation of signals taken and requests executed; draining schedule for liveness |
| C67 | trace of the scheduler (`Sched/Tries.lean`) | what one event adds to the trace (at most one reply, or the stranded tasks of one engine); sends ≤ holders + attempts + refusals; with `one_place_partial` and the retry invariant |
| C68 | scheduler and engines composed, inboxes and outboxes between them, crash with any number of replies sent (`LB/`) | the composed system's events of the scheduler form a `Fresh`, `Prompt` history (derived, not assumed, from what engines do), so the scheduler's theorems apply; counting invariants executions/sends/refusals; `Passes`/`Fails` relations for functional dependencies |
| C69 | stages of futures (done, then ready) and the steps of the io thread; `wait`/`get` as relations between states (`Async/Wait*`) | invariant "callbacks run only for complete children" and monotonicity over every interleaving; outcome of `get` by cases |
| C70 | `result_status`, `AsyncHubResult.wait`, `_asyncresult_from_jobs` on top of the hub model (`Client/Fetch*`) | composition with C31 (`get_results_exact_partial`): buffers of the reply = buffers of the records in sorted order; induction over the polls |
| C71 | the calling thread and the arriving replies as events (`Client/Control*`) | invariant per program point (asked = selected, answered so far), decreasing number of targets left for termination |
| C72 | caller's steps, notices, callbacks, timer, engine monitor (`Client/Engines*`) | invariant "a waiting callback is installed and its condition is false"; monotone event flag |
| C73 | the requests sent by `scatter`, `gather`, `BroadcastView.map` on the engine system of C65 (`Namespace/Scatter*`) | executed-before lemma from FIFO queues; frame condition for other requests; reduction of the joined pieces to C01/C04 |
| C74 | trace of the scheduler (`Sched/Once.lean`), and of scheduler and engines together (`LB/Deaths.lean`) | invariant: each send is still assigned, or taken back (then the engine is in the blacklist), or the reply is out; sends of one handler are all assigned when it ends; composed system: executions ≤ sends |
| C75 | `_display_stream`, `display_outputs` (`Client/Display*`) | spec: a page of blocks (header line, text); induction over the pieces with the remembered prefix and last character; rich outputs with the label in force |
| C76 | two threads: the steps of `stream_output` and those of the IO thread (`Client/Stream*`) | each request's view of both threads (phases of entering); invariant: text = Z·D·f·Y, shown = D·(Z·D·f)·X with X·flight = f·Y |
| C77 | `ClusterManager`, `clean_cluster_files`, `Cluster.from_file` on a disk of cluster files (`Cluster/Manager*`) | keys are injective; invariant of the loops over directories and files (kept entries stay, every entry has an origin, every file is on disk or done) |
| C78 | connection files, `construct_url`, `disambiguate_url`, the sockets bound by the controller, the addresses used by engines and clients, `get_connection_info` (`Connect/*`) | strings end in a port that identifies the service; split/join lemmas; case analysis over the states of the two files |
| C79 | `parallel_execute`, `%px`, `%%px`, `%pxresult`, `%pxconfig` as a list of events under an environment that answers the blocking calls; `%autopx` as a state machine over typed cells (`Magics/*`) | case analysis over the outcomes of every wait; `%autopx`: induction over the cells, parity of the toggles; violations by concrete families |
| C80 | engine processes, hub registration and heart monitor as one transition system with message queues between them (`Life/*`) | invariant over all events (`Inv`): uuids, ids, replies, notices, reports in transit; final states (`Finished`); counting beats (`Quiet`); `Auto`/`Fresh`/`Coming` for liveness-like claims; violations by concrete histories and, for restored engines, by an invariant over all histories |
| C81 | every query handler of the hub as a program of operations that may raise and messages sent; clients, requests, suspended handlers and replies under way as a transition system (`HubQ/*`) | combinators `Quiet`, `Safe`, `Final` and `Oks` give one answer and its status for all environments; an invariant over all events (each request is in one place, the replies of a client are those of the handled requests in order) gives the rest |
| C82 | dumps, loads, base64, the template and the reading of the program as functions on code points; the remote host as a state; noise before and after the answer arbitrary (`Shell/*`) | `loads ∘ dumps = id` and `decode ∘ encode = id` by induction on values and bytes; the regular expression does not match across line ends, so whole lines before the answer do not matter |
| C83 | any number of `imap` systems, submitted calls, the cluster, and the thread in `shutdown` (`View/Executor.lean`); `save_ids` step by step under several threads (`View/SaveIds.lean`) | invariant over all interleavings; "whatever happens, it returns" as an inductive predicate, by a decreasing measure and absence of deadlock without the user's help |
| C84 | programs as trees of import statements, `sync_imports` blocks and exceptions; `builtins.__import__` as a chain of replacement functions; engines as worlds of modules (`View/Imports*.lean`) | mutual induction over program trees: what any program can do to the hook and the requests; induction over the body for the exact list of requests |
| C85 | the four times in a task's metadata through sends, replies and outputs; `compare_datetimes`, `min`/`max` with `None` and naive times, `wall_time`, `serial_time`, `elapsed` (`Async/Timing*.lean`) | the metadata is computed from the history by a separate specification (the replies that landed), by induction on the history; disjoint intervals for the speed-up |
| C86 | the process of `ipcluster start`/`engines` as an event loop: queue, iterations, signals, `on_stop` callbacks, `_stopping`, the `early_shutdown` timeout (`Cluster/App*.lean`); the commands against the cluster file, with the `Cluster` object of C62/C63 (`Cluster/Commands.lean`) | invariants over all histories of iterations and outside events; liveness by stages (asked, about to stop, stopping, over) that every event keeps and every iteration advances |
| C87 | `Client.close`, `_send` and the IO thread's loop, interleaved with any number of other threads at the lines that matter (`Client/Close*.lean`) | invariants over all histories; close() returns in every fair infinite schedule, by stages (stop queued, in the batch, called, loop ended) |
| C88 | the launcher classes of five batch systems: their regular expressions (with a backtracking matcher), templates, insertion of lines, `format`, the context and its observers, submit/delete/signal commands, job ids, `to_dict`/`from_dict` (`Launcher/Batch*.lean`) | the inserted templates are finitely many and are all evaluated by the kernel; the filled-in text is then symbolic in all values; invariant: the context follows the properties in every history |
| C89 | `shlex.quote`, `shlex_join`; the reader is a POSIX shell's word splitting that fails on anything it would expand (`Launcher/Quote.lean`) | induction over words and characters |
| C90 | access by position, name and iteration, in the states of C72's model, interleaved with the io thread (`Async/Access.lean`) | invariant of C72 + induction over the iteration |
| C91 | the two waits of `wait_for_send` with one limit | case analysis over all timings against a specification of a wait with a limit |
| C92 | host table, shared argument lists, observers of `hostname`/`user` (`Launcher/Ssh.lean`) | induction over the table with the shared lists as state; induction over assignments |
| C93 | the waiting thread, ssh failures, `join`, the loop's callback as events | invariant over histories |
| C94 | views as (history, outstanding) over the client model, decorators as functions around the inside of a call (`View/Calls.lean`) | induction over histories; the client's invariants of C40 |
| C95 | reader as a small-step machine over a world of two files, a clock and the controller's status; everything else as arbitrary events (`Connect/Files.lean`) | invariant over event lists that records at which moment each fact was seen; rank for termination |
| C96 | the file as named tables with columns and rows; a connection with its own view; timers and crashes as events (`DB/Persist.lean`) | invariant that names the committed prefix and bounds the due time of uncommitted calls; pigeonhole for the choice of the table |
| C97 | the server as one event loop over the manager's state; a deletion is two steps with anything in between (`Cluster/Web.lean`) | the listing is a permutation, sorted by a total preorder (proved); the usual circumstances and the identity of objects are invariants of all histories; each handler exactly |
| C98 | the two threads of C69 with a clock and the set of outstanding ids; a wait may end when its condition holds or its interval is over (`Async/Interactive.lean`) | induction over the rounds: each round that does not end the loop lasts an interval; monotonicity of the outstanding set for the bar |
| C99 | a collection as a list of documents with a unique id, queries as nested Python data (`DB/Mongo.lean`) | refinement of the plain map of C33 step by step; mutual induction over nested queries for `_translate`; meaning of the operators as in C34 |
| C100 | installed entry points and importable classes as lists of texts (`Cluster/Classes.lean`) | `module:Name` and `module.Name` determine the class (splitting at the first colon, the last dot); look-up in a dict of distinct names; the shipped tables by kernel computation |
| C101 | threads and loops as a transition system, any number of calls (`Async/SyncWrap.lean`) | invariants over all reachable states; completion by induction on the queue in front of the call; explicit runs for the violations |
| C102 | the XML text as a list of characters with a reader as specification (`Cluster/WinHPC.lean`) | the replacement commutes with the rendering; reading inverts the rendering; induction on the pieces |
| C103 | nested values with dates, texts as character lists (`DB/Dates.lean`) | reader against a declarative shape of timestamps (both directions); mutual induction over values |
| C104 | dicts in insertion order, keys as strings or numbers, on the models of C42 and C30 (`Client/QueueStatus.lean`) | the loops of hub and `int_keys` by induction over the engines; composition with `buildTargets` and `queueStatus` |
| C105 | frames as str or bytes, topics as words joined by dots, the attributes of `logging` as any partial function (`Apps/LogWatcher.lean`) | split/join inverse by induction; violations by evaluation for all arguments |
| C106 | events make/apply/terminate over a list of backends and the default cluster (`Client/Joblib.lean`) | invariant over histories; each backend followed by induction over the rest of the history |
| C107 | errors as records of texts, loops with accumulators as in the code (`Async/ErrorText.lean`) | accumulators to flatMap by induction; Python indices characterised |
| C108 | controller, engine sets, clients and `_context_client`; the block as any list of events (`Cluster/Context.lean`) | invariant of the block by induction; violations for all blocks or on concrete states |
| C48, C49, C50 | ports, ReverseDict, monitored queues | invariants; frame routing |

All properties are expressible at the level of logic; where their truth partly lives in the runtime (real time, thread
interleaving), the runtime's choices are explicit events.

## Findings about the code (each proved as a violation unless marked "noted")

Scheduler (`Sched/Violations.lean`; see the comments there for the histories):
* with `hwm ≠ 1` a task can be sent to two engines and executed twice (`sent_twice`, `executed_twice`, `late_reply_twice`);
* a submission with an invalid or already impossible dependency is lost by a `KeyError` when its ids are in the dependency graph (`invalid_dependency_lost`, `follow_failed_lost`); so is a retried any-dependency task with targets (`any_target_lost`);
* impossible dependencies are not always failed, nor transitively (`impossible_not_transitive`, `blacklisted_waits`, `gone_target_waits`);
* the queue is reversed when it is put back (`fifo_violated`); an engine can idle while a task could run (`engine_idles`).
* noted: the detection of unreachable tasks is delayed while all engines are full; scheme `pure` is not in `globals()`.

Cluster manager (C77): a stale cluster file makes `load_clusters` list a dead cluster for ever; a relative profile directory replaces a running `Cluster` object; keys with colons collide; `clean_cluster_files()` without `log` raises AttributeError at the first stale file (`from_file` has already removed it). Noted: directories with `[` are never found by `glob`.

Connections (C78): `construct_url` writes ipc addresses with `-`, `Client` and `IPEngine` with `:`, so the ipc transport cannot work; the engines' registration address is bound only if the *ips* differ (not the transports), and `load_config_from_json` puts the ips of reused files into the config object, where nothing reads them any more, so a restart with `--reuse` alone does not listen there; `--reuse` keeps the old curve public key and packer in the files; connection files are written in place (a crash leaves one that makes the next `--reuse` start die), and `get_connection_info` takes files left by a killed controller for those of the new one. Noted: `is_ip` passes its arguments to `re.match` in the wrong order.

Magics (C79): `%%px --local` with a remote error raises before `display_outputs` (magics.py:471-474); `%pxresult` likewise; `%%px --verbose` is parsed and ignored; only `CompositeError` is abbreviated after streaming, so a single engine's error is shown twice; `pxrun_nodes` recognises only `%autopx` without suffix, so `%autopx<suffix>` can be turned on but not off.

Life of engines (C80): `abort` sends `unregistration_request` with `self.id`, which before the reply is the id *asked for* (engine/app.py:857-859), so an MPI rank that times out removes the engine that has that id; without a requested id it sends None, which the hub ignores; the hub never tells an engine that its registration was purged or that it was removed, so a slow or resumed engine runs on unlisted; `_load_engine_state` does not tell the heart monitor about restored engines, so one that died meanwhile is never removed.

Queries to the hub (C81): if a query cannot be deserialized, `dispatch_query` passes `parent=msg` where `msg` is still the list of frames, so sending the `hub_error` raises and no answer is sent (hub.py:348-356); a query whose content cannot be packed raises in `_really_send` in the client's IO thread, and `_send_recv` waits for ever (client.py:1311-1326).

Remote shells (C82): `cmd_kill(pid)` without a signal sends no `sig`, and the receiver calls `os.kill(pid, None)`, which raises (shellcmd.py:480-486, shellcmd_receive.py:235-237); `_cmd_send` compares `method == 'start'`, but the method is called `cmd_start`, so the workaround for Windows without breakaway is never used, and that workaround formats `{json_params}` with `input_json=…` (shellcmd.py:47-57, 261); a shell that has no `OSTYPE` leaves the platform of the sender in force; a `;` printed by the remote login makes `initialize` raise ValueError.

Client: see C08, C10, C40, C41, C43, C44, C51. Noted: `_asyncresult_from_jobs` appends str for futures; `result_status` removes from a list while iterating; `display_outputs(groupby='order')` drops the outputs of every engine that has fewer than another (asyncresult.py:1033, C75); a second `display_outputs` may lack a header (`_last_display_prefix` is kept), and with stdout redirected a header may begin in the middle of a line (C75); `stream_output` repeats output that arrives while it is entered, does not show an error that arrived before, overwrites captured text in a notebook (the display id lacks the message id), and raises TypeError on a load-balanced result (C76);
`LoadBalancedView.timeout = None` is refused though documented; exceptions of `imap`'s input iterator surface as
`TypeError`; `ViewExecutor.shutdown` on a `DirectView` raises `AttributeError`, and never returns when the iterator of a map was left early or raised, with enough inputs left (C83); `save_ids` of two threads can lose an id (C51); in `with view.sync_imports()` an import in a called function or another thread, or a failing one that is caught, silently ends the forwarding; `import a.b` leaves `a` unbound on the engines; `from m import *` always fails; a block hides an outer block of another view; a repeated statement is not sent again, so that names can differ (C84); `serial_time` of a ready result with a task that never started raises `AttributeError` (C85); `is_ip` swaps the arguments of `re.match`.

Hub and databases: see C29–C36, C55. Noted: a restored engine that died meanwhile never gets a stopped heart; a crash in `json.dump` leaves a truncated state file; `unregister`
never removes from `self.ids`; a cancelled registration's stall timer purges a later registration of the same uuid.

Output (C59, C60): output of coalescing broadcasts is never shown and `wait_for_output` on them never ends; output of retried tasks is cut off; a lost idle message blocks `wait_for_output` for ever;
purging a result before its output arrived does so too; the hub keeps records made by output alone for ever (everything printed through broadcast views), and never sends rich output to a client that
fetches a result. C58: `db_query(keys=[])` returns all fields (DictDB) or none (SQLite).

Clusters (C62, C63): a failed start leaves a phantom component (file never removed, `start_controller` refuses to try again until `stop_controller`); stopping a set during its start, overlapping restarts and a reused

The command (C86): `ipcluster start` never ends after a failed stop or (without a signal) a failed start, even with `--daemonize`; is refused once although every process of the file is dead; `ipcluster engines` writes the running cluster's file with only its own engines and removes it at their end, so `ipcluster stop` misses the cluster and a second `ipcluster start` is not refused; its `stop_cluster` request is never served, as `loop.stop()` comes first; `ipcluster stop a b` with one file missing stops neither. Noted: `IPClusterStop.signal` is not used; `sigterm_handler` is never registered.

Closing a client (C87): pending futures are never resolved by `close()` (`get()` without a timeout hangs for ever); `_closed` is set last, so requests by other threads during `close()` are accepted and lost; the shutdown notification closes the client inside the IO thread, before requests that are queued there are sent. `apply`/`execute` raise RuntimeError after close, other requests OSError.

Batch systems (C88): `LSFLauncher.start` runs `bsub` with `os.environ` instead of `get_env()`, so its jobs do not know the profile and cluster, and uses `args[0]`, `args[1]` only; the HTCondor templates have no `getenv`, quote arguments for a shell, and there is no `signal_command`; SGE inherits `#PBS -o`; Slurm's `options` is not in any template; unparsable output of the submit command loses the job; `batch_template` is kept after the first start, so a later queue is ignored. Noted: the LSF templates are indented, and have two `-J` lines; `#SBATCH --ntasks=1` of the Slurm controller is recognized only because `\W+` may end in the first dash (`-n` then matches).

Access to results (C90): `__iter__` of a result that is ready raises the combined error before any item, of one that is not it gives the items before the failure; `get_dict()` of a map result zips the engines of the *messages* with the *items* of the joined result; one failure among several tasks makes `ar[i]` raise for every `i`.

SSH launchers (C92, C93): `SSHEngineSetLauncher.start` hands its own list `ssh_args` to every engine launcher, whose `start` appends `-p port` to it unless it contains `-p`: the port of the first host with a port is used for all hosts; `ssh_waitpid` prints `-1` for every exit code; an exception in `wait_one` ends the waiting thread without `notify_stop`; `location` is not saved by `to_dict`.

Views (C94): `save_ids` slices `history[-nmsgs:]`, which for `nmsgs == 0` is the whole history of the client: after a call that raised before sending (or with an empty list of targets) `view.abort()` asks the engines to drop the pending tasks of all views, and `view.wait()` waits for them. `gather` is decorated with `save_ids` and so are the `pull`s it makes: its ids are recorded twice. `DirectView.run` passes `label` to `execute`, which `BroadcastView.execute` does not accept: `BroadcastView.run` always raises TypeError.

Connection files (C95): `save_connection_dict` writes the files in place, so there is a window in which a file exists and is not valid JSON. The launcher allows for one half second of it; engines (`load_connection_file`) and clients (`json.load` in `Client.__init__`) do not retry at all and fail with ValueError, although both have a waiting time. Files that an earlier, killed, controller left behind satisfy `os.path.exists` at once: `get_connection_info` returns them without looking at the controller's status, and may return one old and one new file.

SQLite file (C96): `SQLiteDB.close` is the only commit besides the two-second timer, and nothing in the package calls it: a controller that is stopped by a signal or by `shutdown(hub=True)` rolls back what was recorded since the last tick, for example the results that came in during the last two seconds.

SQLite records (C59, C61): the columns `error` and `execute_result` are declared `text` (sqlitedb.py:163-187), so that the dicts stored there by the adapter are not converted when read: a client that fetches a result from a hub with SQLite gets strings, and `execute_result.get(...)` (client.py:103-118) raises AttributeError. There is no column for `display_data`: the update raises, is logged, and the output is lost. `sql_same` proves that otherwise, for every history, the table holds what the in-memory database without limits holds.

Web service (C97): `clusters.tsx` puts the id of a cluster into the address as it is; ids of profile directories outside `$IPYTHONDIR` contain slashes, which `[^\/]+` (handlers.py:162) does not match: such clusters can be created in JupyterLab but neither started nor stopped. `DELETE` looks the key up again after waiting (`remove_cluster`), without catching KeyError: overlapping deletions give 500. `start_cluster` tests `controller is None`, not whether it runs.

Progress bar (C98): `wait_interactive` documents a TimeoutError that it never raises; its waits last `interval` even if less is left of the timeout; `client.wait_interactive()` iterates over `_futures` while the io thread's `cleanup` removes entries (client.py:1301-1308, 1669).

MongoDB (C99): `drop_matching_records` passes its query untranslated (mongodb.py:106); `update_record` does not look whether a record was matched; `find_records` appends `msg_id` to the caller's list, but not to an empty one, for which pymongo returns only `_id`; BSON keeps milliseconds.

Launcher classes (C100): `abbreviate_launcher_class` falls back to `module:Name` (launcher.py:2530), which `Launcher.validate` cannot resolve (it needs `module.Name`), so `Cluster.from_file` fails for every unregistered launcher class; it looks first into the controllers' group even for an engine launcher.

_sync methods (C101): `thread_callback` catches `Exception` only (_async.py:55), so a cancelled coroutine leaves its concurrent future unset; `_in_thread` sets `_async_thread` before the loop exists and without a lock (_async.py:44-48), ignores the result of `wait(timeout=5)`, and reads `self._thread_loop` afterwards.

Windows HPC (C102): `re.sub` over the whole text takes `_X_` out of values too (_winhpcjob.py:130); `get_env` and `cluster_args` are not used for these jobs; `' '.join` does not quote (_winhpcjob.py:276, 303); `Cluster.start_controller` calls `start()` but WindowsHPCLauncher.start needs `n`, a TypeError (cluster.py:656, launcher.py:1630); `write` uses the encoding of the locale while the header says utf-8 (_winhpcjob.py:134-138). The last two are not modelled.

Dates (C103): `_convert_dict` applies `extract_dates` to whole contents (sqlitedb.py:69), so text of the user that looks like a timestamp is changed; `dateutil` raises for `2024-13-01T00:00:00` and with it the whole `fetchall`. C36 and C58 take `dict` columns to be exact; C103 says for which values they are.

queue_status (C104): `content[targets]` uses the argument, not the id that `_build_targets` made of it (client.py:2328-2329): `rc.queue_status(-1)` raises KeyError.

Log watcher (C105): `LogWatcher.subscribe` passes str to `setsockopt` (TypeError, logwatcher.py:62-69), so iplogger does not start; `log_message` does `'.' in raw[0]` on bytes (TypeError, :88); `rsplit` cuts off the level before `_extract_level` looks for it (:94), so records without subtopic are all shown as INFO; `EnginePUBHandler.root_topic` has no setter while pyzmq's PUBHandler.__init__ assigns it (AttributeError): an engine with `log_url` does not start (engine/log.py:9-20).

joblib (C106): `terminate` closes the client for good and nothing reopens it (client/_joblib.py:53-58), but joblib terminates the backend at the end of every Parallel call, so the second one in one `parallel_config('ipyparallel')` fails; a raising constructor (wait_for_engines) leaves cluster and client (:19-31); engines started in an existing cluster (:26) are never stopped.

`with Cluster()` (C108): `__exit__` tests `if self._context_client:` (cluster.py:913), false for a client without engines, which is then left open (`__aexit__` tests `is not None`); `__enter__` that raises after start leaves everything running (748-761); an engine set whose stop raises keeps the controller running (905-906, 916-917); a nested block overwrites `_context_client`.

Nanny (C66): control requests are not tracked as outstanding on the client and fail with nothing when the engine dies: a blocking `clear`/`abort`/`shutdown`/`send_signal` whose engine dies before the reply is relayed waits for ever; the nanny's own replies have msg_type `_request` (`msg_type[-len("_request"):]`, harmless: clients dispatch by parent id).

Load-balanced tasks (C68): a refusal is recognised by the name of the exception only (`kernel.py:89`), so a task whose own function raises `UnmetDependency` is run once on every engine without using retries and its client is never told (`unmet_from_body_violated`). Noted: `Reference` in the arguments of `@depend` is not resolved, since only `f` and `df` are canned (`canning.py:508`).

Results (C69, C70): `get(return_when=FIRST_EXCEPTION)` can raise TimeoutError without a timeout (waiters are woken before `_finalize_result` runs) and returns a bare exception under `return_exceptions`; `join` fails for
results without targets and for map results; `get_result([mine, remote])` drops `mine`; an id named twice raises TypeError; an aborted task fetched from the hub raises `KeyError('ename')`; `result_status` removes from the list it iterates over;
`AsyncHubResult.wait()`/`ready()` raise the failure. Noted: `get_result` of a task whose output arrives meanwhile can raise KeyError (`_futures` is cleaned up by the io thread).

Control and waiting (C71, C72, C73): a blocking control call raises the first error without waiting for the rest; errors become values in the future of a non-blocking call; one silent engine blocks `shutdown` for ever. `wait_for_engines` misses a
registration between its check and the installation of its callback, and removing a callback while the list is iterated skips the next one. `BroadcastView.map` pairs wrong elements for sequences of unequal length, loses the part of an engine that goes away between scatter
and call, and fails when one arrives; noted: without sequences it sends the call and then raises `UnboundLocalError`.

Namespaces (C64, C65): `push({'_IP_PUSH_TMP_': v})` succeeds without effect; a failing push has assigned the names before the failing one (in sorted order); `clear()` goes through the control queue and may overtake earlier pushes of the same client.
`engine_set_id` lose running engines; a reused process id makes a loaded cluster adopt (and kill) somebody else's process. Noted: a crash between `Popen` and the write of the file loses the process; an empty cluster file is never removed.

Broadcast: C25 (errors hidden, pairing at depth 2). Noted: never monitored by the hub; `use_threads` shares class-level dicts; depth 0 leaves list bare uuids.

Serialization: C37, C39. Noted: `datetime64` arrays cannot be sent; `CannedCell` has no `buffers`. Launchers: C47, C52. Noted: sets restored with `from_dict` forget exit codes. Ports: `PortList` accepts 65536.

## Axioms per theorem

(All theorems of `MANIFEST.json`; `IPP.` omitted.)

**none** (13): `Apps.LogWatch.engine_handler_fails_violated`, `Async.SyncWrap.first_calls_race_violated`, `Async.SyncWrap.slow_start_violated`, `Async.Wait.Interactive.twice_violated`, `Async.Wait.hub_first_exception_violated`, `Capture.display_not_fetched_violated`, `Cluster.Context.nested_violated`, `Conn.clean_exit`, `Conn.clean_exit_reuse`, `Imports.restored`, `Launcher.restart_forgets_violated`, `Stream.load_balanced_violated`, `ViewCalls.abort_named`

**propext** (87): `Apps.LogWatch.watcher_fails_violated`, `Async.Access.iter_single`, `Async.SyncWrap.first_calls_twice_violated`, `Async.Wait.Interactive.client_waits_for`, `Async.collect_composite_violated`, `Async.collect_exceptions_partial`, `Async.collect_remote_composite_violated`, `Async.ordered_iter_error_partial`, `Async.ordered_iter_rr_violated`, `Async.ordered_iter_tuple_violated`, `Async.progress_empty_task_violated`, `Batch.condor_arguments_violated`, `Batch.condor_signal_violated`, `Batch.late_queue_violated`, `Batch.lsf_submit_violated`, `Batch.quote_plain`, `Batch.quote_word`, `Batch.shlex_join_injective`, `Batch.shlex_join_words`, `Batch.stop_announces_once`, `Client.Joblib.engines_stay_violated`, `Cluster.Classes.class_itself`, `Cluster.Context.enter_raises_violated`, `Cluster.WinHPC.command_line_words_partial`, `Cluster.stop_missing_violated`, `Cluster.stop_nothing`, `Conn.file_names_agree`, `Conn.files_agree`, `Conn.info_found`, `Conn.info_is_new`, `Conn.info_waits`, `Conn.restart_same_addresses`, `Conn.reuse_curve_violated`, `Conn.stale_info_violated`, `ConnFiles.mixed_violated`, `ConnFiles.single_partial_violated`, `ConnFiles.single_stale_violated`, `ConnFiles.slow_writer_violated`, `ConnFiles.stale_violated`, `DB.Mongo.mongo_get_extra_violated`, `DB.Mongo.mongo_keys`, `DB.Mongo.translate_same`, `DB.Persist.candidate_names`, `DB.Sql.reads_back`, `Display.display_single`, `Heart.eng_disabled`, `HubQ.one_answer`, `Magics.autopx_agrees`, `Magics.autopx_mixed_cell_violated`, `Magics.cell_verbose_ignored_violated`, `Magics.single_engine_error_shown_twice_violated`, `Manager.lab_reaches`, `Ports.deprecated_hb_pair`, `Ports.deprecated_pair_violated`, `Ports.ephemeral_collides_violated`, `Ports.ports_in_order`, `Query.db_query_error`, `SaveIds.foreign_id_violated`, `SaveIds.lost_id_violated`, `Ser.array_default_violated`, `Ser.data_frame_iff`, `Ser.dict_order_violated`, `Ser.item_threshold_violated`, `Ser.keyword_default_reference_violated`, `Ser.mixed_keys_violated`, `Ser.nested_reference_violated`, `Ser.set_of_partials_violated`, `Shell.message_of_the_day_violated`, `Shell.no_ostype_violated`, `Shell.partial_line_violated`, `Shell.windows_recognised`, `Ssh.link_failure_violated`, `Ssh.parse_written`, `Ssh.restore_location_partial`, `Ssh.start_location`, `Timing.compare_exact`, `Util.pop_value_violated`, `Util.rebinding_violated`, `Util.same_value_violated`, `View.entry_failure_leaks_violated`, `View.exception_kept`, `View.refused_dependency_stored_violated`, `View.save_ids_exact_partial`, `View.save_ids_nothing_violated`, `ViewCalls.run_broadcast_violated`, `dict_round_trip`, `mk_rejects`

**propext, Quot.sound** (386): `Async.Access.abort_exact`, `Async.Access.abort_jobs`, `Async.Access.get_dict_map_violated`, `Async.Access.getitem_other_failed`, `Async.Access.iter_prefix`, `Async.Access.not_finished`, `Async.Access.successful_iff_get`, `Async.Access.wait_for_output`, `Async.Access.wait_for_send`, `Async.ErrorText.index_spec`, `Async.ErrorText.shown_and_announced`, `Async.SyncWrap.dir_exact`, `Async.SyncWrap.first_call_runs`, `Async.Wait.Interactive.bar_ascends`, `Async.Wait.Interactive.bar_true`, `Async.Wait.Interactive.no_timeout_error_violated`, `Async.Wait.Interactive.other_refused`, `Async.Wait.Interactive.progress_counts`, `Async.Wait.Interactive.ready_returns`, `Async.Wait.Interactive.returns_in_time`, `Async.Wait.Interactive.value_error_only`, `Async.Wait.first_exception_shape_violated`, `Async.Wait.get_complete`, `Async.Wait.get_complete_map`, `Async.Wait.join_load_balanced_violated`, `Async.Wait.join_map_violated`, `Async.Wait.spurious_timeout_violated`, `Async.Wait.wait_all`, `Async.Wait.wait_ends`, `Async.Wait.wait_sets`, `Async.aborted_map_never_resolves`, `Async.collect_aborted_violated`, `Async.get_block`, `Async.get_dict_spec`, `Async.get_rr_perm`, `Async.ordered_iter_eq_get_partial`, `Async.ordered_iter_exceptions`, `Async.progress_monotone`, `Async.unordered_iter_perm`, `Async.unordered_iter_perm_rr`, `Batch.condor_env_violated`, `Batch.format_field`, `Batch.job_env_partial`, `Batch.job_id_exact`, `Batch.lost_job_violated`, `Batch.lsf_profile_violated`, `Batch.restart_exact`, `Batch.script_exact`, `Batch.sge_output_violated`, `Batch.slurm_options_violated`, `Batch.start_commands`, `Batch.start_commands_lsf`, `Batch.start_result`, `Batch.stop_right_job`, `Batch.user_template`, `Broadcast.coalesced_error_hidden_violated`, `Broadcast.coalesced_pairing_violated`, `Client.Fetch.fetch_aborted_violated`, `Client.Fetch.fetch_duplicate_cached_violated`, `Client.Fetch.fetch_duplicate_violated`, `Client.Fetch.get_result_drops_violated`, `Client.Fetch.get_result_mixed_violated`, `Client.Fetch.hub_get_again`, `Client.Fetch.hub_wait_raises_violated`, `Client.Fetch.hub_wait_ready`, `Client.Fetch.result_status_skips_violated`, `Client.Joblib.raising_leaks_violated`, `Client.broadcast_stays_outstanding_violated`, `Client.death_during_send_violated`, `Client.first_reply_is_outcome`, `Client.history_exact`, `Client.late_reply_recached_violated`, `Client.mem_pyRange`, `Client.outcome_cause`, `Client.outcome_final`, `Client.outstanding_iff`, `Client.purge_all_exact`, `Client.purge_engine_zero_violated`, `Client.purge_ids_exact`, `Client.purge_nothing`, `Client.purge_targets_type_error_violated`, `Client.second_reply_overwrites_cache_violated`, `ClientClose.lost_at_shutdown_violated`, `ClientClose.lost_in_race_violated`, `ClientClose.nothing_after_close`, `ClientClose.pending_forever_violated`, `ClientClose.refused_after_close`, `ClientClose.sent_before_close_partial`, `ClientClose.sent_in_order`, `Cluster.Classes.case_insensitive`, `Cluster.Classes.find_errors`, `Cluster.Classes.unregistered_lost_violated`, `Cluster.Classes.validate_sound`, `Cluster.Context.stop_raises_violated`, `Cluster.WinHPC.job_id_iff`, `Cluster.WinHPC.job_id_none_iff`, `Cluster.duplicate_id_violated`, `Cluster.engines_end_removes_file_violated`, `Cluster.engines_hide_cluster_violated`, `Cluster.failed_start_keeps_file_violated`, `Cluster.notice_counts`, `Cluster.overlapping_restarts_violated`, `Cluster.partial_start_unsaved_violated`, `Cluster.pending_kept`, `Cluster.reused_pid_violated`, `Cluster.start_refused_dead_violated`, `Cluster.start_refused_iff`, `Cluster.started_set_runs`, `Cluster.stop_during_start_violated`, `Cluster.stop_removes_controller`, `Cluster.stop_removes_set`, `Cluster.stop_stops_named`, `Conn.client_served_partial`, `Conn.engine_served_partial`, `Conn.half_written_violated`, `Conn.ipc_never_reached_violated`, `Conn.larger_depth_violated`, `Conn.pools_suffice`, `Conn.registration_unbound_violated`, `Conn.restart_after_crash`, `Conn.smaller_depth_violated`, `Conn.start_fails_iff`, `ConnFiles.dead_reported`, `ConnFiles.info_current_partial`, `ConnFiles.info_whole`, `ConnFiles.no_limit_waits`, `ConnFiles.single_files`, `ConnFiles.single_sound`, `ConnFiles.steady_ok_partial`, `ConnFiles.stopped_means_ended`, `ConnFiles.timeout_means_missing`, `Control.closed_only_after_success`, `Control.hub_last`, `Control.request_asks`, `Control.request_async`, `Control.request_ends`, `Control.request_raises`, `Control.request_raises_early_violated`, `Control.request_returns`, `Control.request_silent_engine_violated`, `Control.shutdown_asks`, `Control.shutdown_async_silent_violated`, `Control.shutdown_ends`, `Control.shutdown_no_engines`, `Control.shutdown_raises`, `Control.shutdown_restart`, `Control.shutdown_returns`, `Control.shutdown_silent_engine_violated`, `Cr.sub_cr`, `Cr.sub_lines`, `Cr.sub_plain`, `DB.Dates.readRows_error`, `DB.Mongo.translate_cond`, `DB.Mongo.translate_enc`, `DB.Persist.fits_iff`, `DB.Sql.render_wellFormed`, `Display.display_outputs_bodies`, `Display.display_result_only`, `Display.display_single_files`, `Engine.abort_nothing_aborts_all_violated`, `Engine.abort_replies_only`, `Engine.abort_table_grows_violated`, `Engine.abort_with_ids_replies`, `Engine.abort_without_ids_no_reply_violated`, `Engine.aborted_only_if_asked`, `Engine.answered_in_order`, `Engine.others_run`, `Exec.break_hangs_violated`, `Exec.cancelled_map_late_task_violated`, `Exec.closed_early_hangs_violated`, `Exec.direct_view_shutdown_violated`, `Heart.misses_after_ping`, `Heart.pong_notes`, `Hub.auto_id_fresh`, `Hub.crash_while_loading_violated`, `Hub.get_results_exact_partial`, `Hub.get_results_rejects`, `Hub.get_results_stored_partial`, `Hub.get_results_unfinished_partial`, `Hub.get_status_exact_partial`, `Hub.ident_lookup`, `Hub.ids_unique`, `Hub.known_iff_requested`, `Hub.next_id_lost_violated`, `Hub.notifications_describe_engines`, `Hub.pending_and_completed_violated`, `Hub.purge_all_exact`, `Hub.purge_engines_dict_violated`, `Hub.purge_engines_exact_partial`, `Hub.purge_engines_only_sql_violated`, `Hub.purge_ids_accepted_iff`, `Hub.purge_ids_exact`, `Hub.purge_unknown_engine`, `Hub.purged_status_violated`, `Hub.register_refused_iff`, `Hub.request_recorded`, `Hub.requested_id_granted`, `Hub.restart_restores`, `Hub.restarts_restore_partial`, `Hub.resubmit_duplicates_violated`, `Hub.result_before_request_violated`, `Hub.retried_task_listed_twice_violated`, `Hub.reused_id_violated`, `Hub.stale_record_completed_violated`, `Hub.stale_record_violated`, `Hub.stalled_can_retry`, `Hub.stopped_heart_unregisters`, `Hub.stranded_queue_violated`, `Hub.taken_id_replaced`, `Hub.uuids_unique`, `HubQ.ok_iff_succeeds`, `HubQ.outcome_final`, `Imap.map_outstanding_forever_violated`, `Imports.numbered`, `Imports.ordinary_again`, `Imports.repeated_stale_violated`, `Ipcluster.signal_ends_partial`, `LB.require_args`, `LB.require_missing`, `LB.require_right`, `Launcher.callbacks_exactly_once_partial`, `Launcher.empty_set_never_stops_violated`, `Launcher.failed_start_never_stops_violated`, `Launcher.place_count`, `Launcher.place_first`, `Launcher.restart_same_partial`, `Launcher.start_slots`, `Life.timeout_keeps_pending_violated`, `Life.timeout_removes_other_violated`, `Magics.autopx_on_sends_everything`, `Magics.autopx_session`, `Magics.blocking_cell_raises_iff_failed`, `Magics.local_after_submit`, `Magics.noblock_returns_result`, `Magics.px_is_cell_without_arguments`, `Magics.pxconfig_changes_exactly`, `Magics.pxresult_of_failure_hides_outputs_violated`, `Manager.clean_no_log_violated`, `Manager.clean_outcome`, `Manager.clean_spares`, `Manager.create_exact`, `Manager.delete_answer`, `Manager.delete_twice_violated`, `Manager.key_inj`, `Manager.known_read`, `Manager.lab_cannot_reach_violated`, `Manager.load_again`, `Manager.load_keeps`, `Manager.load_lists`, `Manager.load_only`, `Manager.load_removes`, `Manager.load_spares`, `Manager.load_usual`, `Manager.new_adds`, `Manager.new_usual`, `Manager.remove_removes`, `Manager.start_dead_violated`, `Manager.start_exact`, `Manager.start_refused`, `Manager.unknown_404`, `Map.block_partition_size`, `Map.block_partitions_concat`, `Map.call_unequal_rejected`, `Map.parMap_rejects`, `Map.pyMap_single`, `Map.pyMap_spec_get`, `Map.pyMap_spec_length`, `Mux.answers_exactly`, `Mux.answers_only_own`, `Mux.delivered_exactly`, `Mux.hub_sees`, `Nanny.all_answered_partial`, `Nanny.answered_while_alive_partial`, `Nanny.executed_in_order`, `Nanny.hub_told`, `Nanny.hub_told_once`, `Nanny.late_request_violated`, `Nanny.lost_reply_violated`, `Nanny.replies_once`, `Nanny.replies_right`, `Nanny.signals_in_order`, `Output.ar_stdout_partial`, `Output.ar_wait_for_output_partial`, `Output.caches_emptied`, `Output.coalescing_output_violated`, `Output.completion_drops_result`, `Output.data_shown_partial`, `Output.displays_shown_partial`, `Output.error_result_shown_partial`, `Output.input_shown_partial`, `Output.lost_idle_violated`, `Output.output_frozen`, `Output.output_shown_partial`, `Output.purge_forgets`, `Output.stderr_shown_partial`, `Output.stdout_collapsed_partial`, `Output.stdout_shown_partial`, `Output.stream_exact`, `Output.wait_for_output_done_partial`, `Output.wait_for_output_sound`, `Ports.only_configured`, `Ports.parse_written`, `Ports.ports_at_most_once`, `Ports.ports_distinct_partial`, `Ports.validate_written`, `SaveIds.history_grows`, `SaveIds.own_recorded_partial`, `SaveIds.recorded_was_sent`, `Sched.Violations.any_target_lost`, `Sched.Violations.blacklisted_waits`, `Sched.Violations.doomed_by_decision_waits`, `Sched.Violations.engine_idles`, `Sched.Violations.executed_twice`, `Sched.Violations.fifo_violated`, `Sched.Violations.follow_failed_lost`, `Sched.Violations.gone_target_waits`, `Sched.Violations.impossible_not_transitive`, `Sched.Violations.invalid_dependency_lost`, `Sched.Violations.late_reply_twice`, `Sched.Violations.sent_twice`, `Sched.sent_twice_same_violated`, `Sched.sortByTime_sorted`, `Sched.started_twice_violated`, `Ser.apply_roundtrip_partial`, `Ser.data_serializes`, `Ser.frames_large`, `Ser.roundtrip_partial`, `Ser.roundtrip_references_partial`, `Ser.uncan_can_closed_partial`, `Ser.uncan_can_partial`, `Shell.pid_read`, `Shell.surrogates_merged_violated`, `Shell.unix_recognised`, `Ssh.ports_partial`, `Ssh.start_slots`, `Ssh.start_where`, `Stream.captured_error_violated`, `Stream.notebook_captured_violated`, `Stream.streamed_left`, `Stream.streamed_twice_violated`, `Stream.terminal_body`, `Stream.terminal_files`, `Stream.terminal_rich`, `Timing.compare_naive`, `Timing.serial_of_died_violated`, `Tree.addresses_exact`, `Tree.identities_unique`, `Tree.leaves_cover`, `Tree.one_parent`, `Util.lookup_exact_partial`, `Util.lookup_involutive_partial`, `Util.pop_removes_both_partial`, `Util.set_refused_iff`, `View.all_flags_settable`, `View.flags_by_name`, `View.flags_restored_partial`, `View.no_exception_added`, `View.set_flags_exact`, `View.set_flags_ok_iff`, `ViewCalls.abort_after_failure_violated`, `ViewCalls.abort_all_own`, `ViewCalls.abort_only_own_partial`, `ViewCalls.gather_twice_violated`, `ViewCalls.get_result_ids`, `ViewCalls.get_result_index_partial`, `ViewCalls.get_result_violated`, `ViewCalls.history_complete`, `ViewCalls.history_exact_partial`, `ViewCalls.outstanding_complete`, `ViewCalls.outstanding_current`, `ViewCalls.outstanding_exact_partial`, `ViewCalls.outstanding_own_partial`, `ViewCalls.wait_after_failure_violated`, `ViewCalls.wait_broadcast_violated`, `ViewCalls.wait_returns_partial`, `ViewCalls.wait_sound`, `WaitEngines.enough_at_once`, `WaitEngines.error_means_gone`, `WaitEngines.ids_known`, `WaitEngines.loop_ends`, `WaitEngines.lost_wakeup_violated`, `WaitEngines.second_waiter_skipped_violated`, `WaitEngines.success_means_enough`, `WaitEngines.timeout_means_too_few`, `WaitEngines.timer_ends`, `WaitEngines.unregister_skips_violated`

**propext, Classical.choice, Quot.sound** (486): `Apps.LogWatch.level_lost_violated`, `Apps.LogWatch.message_fails_violated`, `Apps.LogWatch.shown_subtopic_partial`, `Async.Access.get_dict_list`, `Async.Access.getitem_int`, `Async.Access.getitem_single`, `Async.Access.getitem_slice`, `Async.Access.iter_complete`, `Async.Access.iter_prompt`, `Async.Access.iter_raises`, `Async.Access.iter_readiness_violated`, `Async.Access.metadata_access`, `Async.Access.successful_iff`, `Async.ErrorText.bad_index`, `Async.ErrorText.by_index`, `Async.ErrorText.render_shows`, `Async.ErrorText.str_short`, `Async.ErrorText.str_shows`, `Async.ErrorText.stream_shows`, `Async.SyncWrap.call_can_end`, `Async.SyncWrap.call_own_result`, `Async.SyncWrap.call_runs_once`, `Async.SyncWrap.cancelled_hangs_violated`, `Async.SyncWrap.dir_usable`, `Async.SyncWrap.failed_runs_nothing`, `Async.SyncWrap.first_call_good`, `Async.SyncWrap.free_always`, `Async.SyncWrap.inside_deadlock`, `Async.SyncWrap.inside_deadlock_violated`, `Async.SyncWrap.no_error_later`, `Async.SyncWrap.no_error_serial`, `Async.SyncWrap.same_both_ways`, `Async.SyncWrap.wrapper_iff`, `Async.Wait.Interactive.bar_full`, `Async.Wait.Interactive.client_race_violated`, `Async.Wait.Interactive.hub_bar_violated`, `Async.Wait.Interactive.interval_before_timeout_violated`, `Async.Wait.Interactive.noticed_ends`, `Async.Wait.Interactive.returns_when`, `Async.Wait.Interactive.rounds_bounded`, `Async.Wait.first_exception_prompt`, `Async.Wait.first_exception_timeout_partial`, `Async.Wait.get_raises`, `Async.Wait.join_split`, `Async.Wait.wait_when`, `Async.multi_future_done_iff`, `Async.multi_future_failure`, `Async.multi_future_result`, `Async.progress_complete_iff_partial`, `Async.progress_eq`, `Broadcast.broadcast_count`, `Broadcast.broadcast_exactly_once`, `Broadcast.coalesced_arrives`, `Broadcast.coalesced_complete`, `Broadcast.coalesced_pairing_partial`, `Broadcast.treeOrder_perm`, `Capture.destination_recorded`, `Capture.fetched_streams_complete`, `Capture.last_report_kept_partial`, `Capture.output_after_eviction_violated`, `Capture.output_after_purge_violated`, `Capture.output_does_not_interfere_partial`, `Capture.output_leaves_tables`, `Capture.output_only_unbounded_violated`, `Capture.output_recorded`, `Capture.request_recorded`, `Capture.result_engine_recorded`, `Capture.result_recorded_partial`, `Capture.second_result_replaces_violated`, `Capture.sql_destination_recorded`, `Capture.sql_display_lost_violated`, `Capture.sql_error_as_text_violated`, `Capture.sql_last_input_partial`, `Capture.sql_output_does_not_interfere_partial`, `Capture.sql_output_recorded`, `Capture.sql_request_recorded`, `Capture.sql_result_engine_recorded`, `Capture.sql_result_recorded_partial`, `Capture.sql_same`, `Capture.sql_streams_complete`, `Capture.streams_complete`, `Client.Fetch.get_result_ids_partial`, `Client.Fetch.hub_get_answers_partial`, `Client.Fetch.hub_get_exact_partial`, `Client.Fetch.hub_get_owner_partial`, `Client.Fetch.result_status_exact_partial`, `Client.Joblib.given_view_always`, `Client.Joblib.others_untouched`, `Client.Joblib.own_view_until_partial`, `Client.Joblib.second_parallel_fails_violated`, `Client.Joblib.terminate_releases`, `Client.QStat.finish_one`, `Client.QStat.finish_reports`, `Client.QStat.status_all`, `Client.QStat.status_bad_target`, `Client.QStat.status_end_to_end_partial`, `Client.QStat.status_negative_violated`, `Client.QStat.status_one_partial`, `Client.QStat.status_targets`, `Client.broadcast_wait_never_returns_violated`, `Client.ids_exact`, `Client.others_untouched`, `Client.purge_targets_violated`, `Client.sent_after_death_violated`, `Client.stranded_resolved_partial`, `Client.targets_all`, `Client.targets_int`, `Client.targets_list`, `Client.targets_negative`, `Client.targets_no_engines`, `Client.targets_registered`, `Client.targets_slice`, `Client.targets_slice_between`, `Client.targets_slice_last`, `Client.targets_slice_reverse`, `Client.targets_slice_zero`, `Client.unknown_unregister`, `Client.wait_returns_iff`, `ClientClose.close_returns`, `Cluster.Classes.abbreviate_registered`, `Cluster.Classes.abbreviation_class`, `Cluster.Classes.controller_forgotten_violated`, `Cluster.Classes.find_full_name_violated`, `Cluster.Classes.full_name_class`, `Cluster.Classes.inherited_name_violated`, `Cluster.Classes.reload_class`, `Cluster.Classes.reload_cluster_partial`, `Cluster.Classes.saved_again`, `Cluster.Classes.shadowed_violated`, `Cluster.Classes.shipped_distinct`, `Cluster.Classes.shipped_reload`, `Cluster.Classes.shipped_well`, `Cluster.Classes.two_names_violated`, `Cluster.Classes.wrong_group_violated`, `Cluster.Context.block_gives_back_partial`, `Cluster.Context.client_left_open_violated`, `Cluster.Context.exit_stops`, `Cluster.WinHPC.command_line_space_violated`, `Cluster.WinHPC.engine_job_tasks`, `Cluster.WinHPC.environment_lost_violated`, `Cluster.WinHPC.job_file_partial`, `Cluster.WinHPC.job_file_reads`, `Cluster.WinHPC.job_id_host_violated`, `Cluster.WinHPC.underscore_letter_violated`, `Cluster.file_exists_partial`, `Cluster.file_full`, `Cluster.file_iff_running_partial`, `Cluster.file_lists_running_partial`, `Cluster.file_loadable`, `Cluster.generated_id_new`, `Cluster.load_restores_partial`, `Cluster.loaded_set_size`, `Cluster.no_process_forgotten_partial`, `Cluster.running_is_alive`, `Cluster.set_size_kept`, `Cluster.stopped_cluster_partial`, `Cluster.stopped_is_dead`, `Conn.file_names_differ`, `Conn.fresh_start_serves_partial`, `Conn.inner_loopback`, `Conn.leaf_is_right`, `Conn.restart_same_sockets`, `ConnFiles.dead_ends`, `ConnFiles.ends`, `ConnFiles.single_ends`, `Control.request_all_engines`, `Control.request_future`, `Control.request_future_hides_errors_violated`, `DB.Dates.bad_date_ruins_query_violated`, `DB.Dates.extract_error_iff`, `DB.Dates.extract_same_iff`, `DB.Dates.naive_changed_violated`, `DB.Dates.pat_iff`, `DB.Dates.rows_same_partial`, `DB.Dates.stored_local`, `DB.Dates.stored_same_partial`, `DB.Dates.string_becomes_date_violated`, `DB.Dates.text_with_zone_violated`, `DB.Mongo.microseconds_violated`, `DB.Mongo.mongo_agrees_partial`, `DB.Mongo.mongo_drop_exact`, `DB.Mongo.mongo_drop_glob_violated`, `DB.Mongo.mongo_exists_violated`, `DB.Mongo.mongo_find_exact`, `DB.Mongo.mongo_glob_and_violated`, `DB.Mongo.mongo_glob_exact`, `DB.Mongo.mongo_history`, `DB.Mongo.mongo_like_map`, `DB.Mongo.mongo_no_keys_violated`, `DB.Mongo.mongo_raises_iff`, `DB.Mongo.mongo_update_unknown_violated`, `DB.Mongo.run_uniq`, `DB.Mongo.same_ms_violated`, `DB.Mongo.translate_noGlob`, `DB.Persist.close_keeps_all`, `DB.Persist.crash_keeps_prefix`, `DB.Persist.foreign_tables_untouched`, `DB.Persist.session_sees`, `DB.Persist.start_exact`, `DB.Persist.start_finds`, `DB.Persist.stop_loses_violated`, `DB.Sql.drop_matching_exact_partial`, `DB.Sql.drop_matching_raises`, `DB.Sql.empty_in_violated`, `DB.Sql.empty_query_violated`, `DB.Sql.find_agree_partial`, `DB.Sql.gt_disagree_violated`, `DB.Sql.ne_null_violated`, `DB.Sql.raises_iff`, `DB.Sql.sql_drop_completed`, `DB.Sql.sql_drop_engine`, `DB.Sql.sql_drop_ids`, `DB.Sql.sqlite_find_exact_partial`, `DB.Sql.sqlite_like_map`, `DB.Sql.update_unknown_violated`, `DB.add_raises_iff`, `DB.bytes_exact`, `DB.calls_return`, `DB.dict_drop_completed`, `DB.dict_drop_engine_nothing`, `DB.dict_drop_ids`, `DB.drop_raises_iff`, `DB.evicts_oldest`, `DB.find_exact_partial`, `DB.find_keys`, `DB.find_total`, `DB.get_culled`, `DB.get_like_map`, `DB.gt_violated`, `DB.no_eviction_below_limits`, `DB.null_compare_raises`, `DB.plain_not_last_violated`, `DB.readd_after_eviction_violated`, `DB.record_limit_kept_partial`, `DB.record_limit_violated`, `DB.size_limit_kept`, `DB.two_plain_violated`, `DB.unstamped_hangs_violated`, `DB.update_raises_iff`, `Display.display_again_violated`, `Display.display_order_drops_violated`, `Display.display_order_partial`, `Display.display_outputs_files`, `Display.display_outputs_page`, `Display.display_outputs_rich`, `Display.header_in_line_violated`, `Engine.aborted_never_runs`, `Engine.all_answered`, `Engine.client_abort_exact`, `Exec.shutdown_ends_partial`, `Exec.shutdown_waits_partial`, `Heart.answering_never_stopped`, `Heart.eng_gives_up_iff`, `Heart.new_iff`, `Heart.notes_alternate`, `Heart.silent_heart_dies`, `Heart.stopped_iff`, `Hub.completed_stays_partial`, `Hub.fetch_known_partial`, `Hub.fetched_result_genuine`, `Hub.pending_completed_disjoint_partial`, `Hub.purge_never_pending`, `Hub.queue_status_exact_partial`, `Hub.resubmit_exact_partial`, `Hub.resubmit_refused_iff_partial`, `Hub.task_pending`, `Hub.unanswered_pending`, `Hub.unassigned_exact`, `HubQ.answered_once`, `HubQ.every_call_answered_partial`, `HubQ.own_answer`, `HubQ.unanswered_call_violated`, `Imap.complete`, `Imap.complete_cancelled`, `Imap.no_deadlock`, `Imap.steps_decrease`, `Imap.window`, `Imap.yields`, `Imports.dotted_unbound_violated`, `Imports.forwarded_partial`, `Imports.inner_hides_outer_violated`, `Imports.lost_violated`, `Imports.no_error_all_engines`, `Imports.remote_failure_raised`, `Imports.same_names_partial`, `Imports.star_fails_violated`, `Ipcluster.controller_stop_ends`, `Ipcluster.daemonize_ends`, `Ipcluster.daemonize_leaves_running`, `Ipcluster.early_stop_ends`, `Ipcluster.engines_goes_on`, `Ipcluster.engines_never_stops`, `Ipcluster.engines_notice_ends`, `Ipcluster.engines_stop_ends`, `Ipcluster.exit_code`, `Ipcluster.failed_start_never_ends_violated`, `Ipcluster.failed_stop_never_ends_violated`, `Ipcluster.signals_relayed`, `Ipcluster.start_ends_stopped`, `Ipcluster.start_goes_on`, `Ipcluster.stops_at_most_once`, `LB.answered_or_tried_deaths_partial`, `LB.answered_or_tried_partial`, `LB.call_right`, `LB.called_at_most_partial`, `LB.executed_once_partial`, `LB.execution_right`, `LB.namespace_persists`, `LB.one_answer_partial`, `LB.reply_right`, `LB.result_right`, `LB.unmet_from_body_violated`, `Launcher.raising_callback_violated`, `Launcher.set_callbacks_exactly_once_partial`, `Launcher.set_exit_code_partial`, `Launcher.set_stops_iff_partial`, `Life.announced_once`, `Life.given_up_never_listed`, `Life.goodbye_removes`, `Life.listed_agrees`, `Life.listed_unique`, `Life.removed_only_by_own_death`, `Life.removed_stays_removed`, `Life.requested_granted`, `Life.responsive_announced`, `Life.responsive_listed`, `Life.restored_dead_listed_for_ever_violated`, `Life.resumed_engine_lost_violated`, `Life.silent_removed`, `Life.slow_engine_lost_violated`, `Life.stalled_never_listed`, `Life.stopped_means_silent`, `Life.timeout_removes_other_for_ever_violated`, `Magics.autopx_suffix_cannot_turn_off_violated`, `Magics.blocking_cell_shown_once`, `Magics.cell_leaves_configuration`, `Magics.cell_records_result`, `Magics.cell_submitted_once`, `Magics.interrupt_signals_targets`, `Magics.local_failure_hides_outputs_violated`, `Magics.pxresult_shows_last`, `Manager.colon_violated`, `Manager.create_refused`, `Manager.dead_listed_violated`, `Manager.delete_exact`, `Manager.list_complete`, `Manager.list_during_delete_violated`, `Manager.list_exact`, `Manager.list_only`, `Manager.list_sorted`, `Manager.listed_readable`, `Manager.relative_dir_violated`, `Manager.start_during_delete_violated`, `Manager.web_inv`, `Map.block_partition_balanced`, `Map.block_partition_rejects`, `Map.chunks_bounded`, `Map.mapResult_len`, `Map.parMap_eq_map`, `Map.parMap_single`, `Map.rr_partition_contents`, `Map.rr_round_trip`, `Map.scatter_gather`, `Namespace.apply_clean`, `Namespace.apply_effect`, `Namespace.apply_reference`, `Namespace.broadcast_map_partial`, `Namespace.clear_overtakes_violated`, `Namespace.engine_sequential`, `Namespace.executed_in_order`, `Namespace.gather_reply`, `Namespace.map_lost_engine_violated`, `Namespace.map_new_engine_violated`, `Namespace.map_reply`, `Namespace.map_unequal_violated`, `Namespace.other_queue_violated`, `Namespace.pull_missing`, `Namespace.pull_one`, `Namespace.pull_values`, `Namespace.push_effect_partial`, `Namespace.push_failure`, `Namespace.push_tmp_violated`, `Namespace.read_your_writes`, `Namespace.scatter_then_gather`, `Namespace.temps_identifiers`, `Output.chunk_boundary_violated`, `Output.late_output_leak_violated`, `Output.purge_output_violated`, `Output.retry_output_violated`, `Query.db_query_dictdb_partial`, `Query.db_query_faithful`, `Query.db_query_sqlite_partial`, `Query.empty_keys_dict_violated`, `Query.empty_keys_sqlite_violated`, `Query.sqlite_keys_error`, `Sched.after_before_send`, `Sched.all_schemes_valid`, `Sched.at_most_one_relay`, `Sched.at_most_one_reply_partial`, `Sched.doomed_subject_answered_partial`, `Sched.doomed_task_answered_partial`, `Sched.fail_justified`, `Sched.failure_relayed_after_retries`, `Sched.fifo_partial`, `Sched.fuel_suffices`, `Sched.hopeless_arrival_answered_partial`, `Sched.hwm_never_exceeded`, `Sched.hwm_now`, `Sched.invalid_answered_partial`, `Sched.invalid_arrival_answered_partial`, `Sched.leastload_minimal`, `Sched.leastload_picks_least`, `Sched.loads_exact`, `Sched.lru_picks_oldest`, `Sched.no_engine_idles_partial`, `Sched.no_task_stranded_partial`, `Sched.not_sent_after_reply_partial`, `Sched.one_place_partial`, `Sched.placement_partial`, `Sched.placement_targets_partial`, `Sched.retried_at_most`, `Sched.runnable_subject_sent_partial`, `Sched.runnable_task_sent_partial`, `Sched.schemes_valid`, `Sched.sent_accounted_partial`, `Sched.sent_once_partial`, `Sched.stale_timer_harmless_partial`, `Sched.started_at_most_partial`, `Sched.stranded_dealt_at_once`, `Sched.stranded_handler_scheduled`, `Sched.stranded_task_resolved_partial`, `Sched.success_relayed_at_once`, `Sched.task_not_lost_partial`, `Sched.timeout_answers_partial`, `Sched.timeout_only_from_timer_partial`, `Sched.timeout_only_waiting_partial`, `Sched.too_many_failures_relayed`, `Sched.tries_at_most_partial`, `Sched.weighted_valid`, `Ser.set_roundtrip_partial`, `Shell.command_arrives`, `Shell.encode_decode`, `Shell.exists_exact`, `Shell.kill_exact`, `Shell.kill_without_signal_violated`, `Shell.loads_dumps`, `Shell.remove_exact`, `Shell.running_exact`, `Shell.start_exact`, `Ssh.announced_live_partial`, `Ssh.announced_sound`, `Ssh.empty_user_violated`, `Ssh.exit_code_violated`, `Ssh.identifiers_distinct`, `Ssh.ports_kept_violated`, `Ssh.ports_violated`, `Ssh.restore_location_violated`, `Ssh.wanted_spelled`, `Stream.notebook_display`, `Stream.streamed_live`, `Stream.streamed_once`, `Stream.streamed_outputs`, `Stream.streamed_received`, `Stream.streamed_result`, `Stream.streamed_text`, `Stream.terminal_page`, `Timing.early_timeout`, `Timing.elapsed_exact`, `Timing.elapsed_never_decreases`, `Timing.serial_exact`, `Timing.serial_missing_violated`, `Timing.speedup_at_most_engines`, `Timing.times_final`, `Timing.wall_exact`, `ViewCalls.direct_all`, `ViewCalls.direct_no_targets`, `ViewCalls.direct_one`, `ViewCalls.direct_one_each`, `WaitEngines.not_left_waiting_partial`, `check_iff`, `check_none_iff`, `check_permanent`, `not_check_and_unreachable`, `of_dict_defaults`, `unreachable_exact`, `unreachable_permanent`
