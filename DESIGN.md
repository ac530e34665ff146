# Formal model of motan-go in Lean 4

The source in `/repo` is read as text. Nothing is built or run.

## Layout

* `lean/Verif/Basic/*`  – helper definitions and lemmas that mention no motan-go code.
* `lean/Verif/Model/*`  – the model, function by function. Each definition cites file and lines.
* `lean/Verif/Spec/*`   – small independent specifications used in theorem statements
  (where the English property needs a notion of its own, e.g. "the last value set"). Specifications that
  belong to one property are in its Props file, in the namespace `Spec`.
* `lean/Verif/Proof/*`  – helper lemmas.
* `lean/Verif/Props/*`  – the property theorems, one file per property group, each with
  `example`s that meet the hypotheses with concrete non-trivial data.
* `MANIFEST.json` maps property ids to theorem names, `seeded/LOG.jsonl` records mutation runs.

## Conventions

* A Go `string`/`[]byte` is a `List UInt8`. `uintN` is `UIntN`/`BitVec N` or a `Nat` with its bound
  stated; `int` is `Int` unless wrap-around matters.
* A Go function that can fail returns `Except`; one that can panic has an explicit panic outcome.
  Nothing that can panic in Go is totalised silently.
* A mutex-protected section or a single channel/atomic operation is one step; concurrency
  is a transition relation, and theorems quantify over all finite schedules.
* Randomness and clocks are explicit arguments that theorems quantify over.
* Go map iteration order is modelled by an arbitrary order (any permutation) where it is observable.
* Where the code violates the English property, the negation is proved for a concrete witness
  (`*_violated` / `*_counterexample`), and what does hold is proved under an explicit extra hypothesis.

## Properties: what is modelled and how it is proved

| id | property | status | model (Model/…) | theorems in (Props/…) | how it is proved |
|----|----|----|----|----|----|
| C01 | Byte buffer write/read round-trip | proved | BytesBuffer | Buffer | refinement of the buffer to the list of written bytes; induction on the list of typed values |
| C02 | Varint encoding is a bijection onto short canonical strings | proved | BytesBuffer | Buffer, Varint | induction on the loop; prefix-consumption lemma; every byte string is a short varint, ten continuation bytes or too short |
| C03 | Zigzag integers round-trip and stay small | proved | BytesBuffer | Buffer | bit-vector algebra, case on sign |
| C04 | Message header flag setters are independent | proved | Motan2 | Header | bit algebra on bytes; induction on the list of setter calls |
| C05 | motan2 message framing round-trip | proved | Motan2, BytesBuffer | Motan2 | round trip with the rest of the stream; induction on lists of messages |
| C06 | motan2 decoding of arbitrary bytes is safe | proved | Motan2, BytesBuffer | Motan2, Frame | case analysis; prefix argument; a specification of the frame without functions of the model, by induction on the lines of the metadata |
| C07 | Metadata cannot be injected through keys or values | proved | Motan2, BytesBuffer | Motan2 | round trip of the segment parser by induction |
| C08 | Simple serialization round-trip | proved | Simple, BytesBuffer | Simple | mutual induction on values |
| C09 | Simple deserialization of arbitrary bytes is contained | proved | Simple, BytesBuffer | Simple | mutual induction on values and on the fuel of the decoder, which is proved sufficient |
| C10 | Multi-argument serialization round-trip | proved | Simple, BytesBuffer | Simple | mutual induction on values |
| C100 | A server takes connections until it is destroyed, and then no more | proved | Accept | Accept | The loop, the calls of Destroy and the goroutines of connections as a transition system; an invariant over the channel, the listener and the counter by induction over histories. |
| C101 | The administrative pages answer what they are asked | proved | Admin | Admin | The two handlers as functions of the request; the conditions of acceptance from C54; induction over the keys for the runtime page. |
| C102 | Services in the same process and gRPC services are called as asked | proved | Inproc | Inproc | Registrations, endpoints and the single steps of an initialization as a transition system; an invariant (what is entered is the service's; one endpoint's entries are all there) by induction over histories. The gRPC call as a function of the library's answer, composed with the conversion of C11. |
| C103 | The zookeeper nodes above a registration are created, and commands are found by group | proved | ZkTree | ZkTree | the nodes of the server are a list of paths; creation with parents is a recursion with explicit depth, shown to end with exactly the missing nodes created, by induction on the length of the path, and never to end when a node on the way is refused |
| C104 | The runtime page shows what the agent has, unless a service cannot be passed on | proved | Runtime | Runtime | `GetRuntimeInfo` of clusters, providers, exporters and servers as functions into structures, with panics as none; the loop over endpoints by induction with injective numbered keys; the page by the theorems of C101. |
| C105 | A file has one context for clients and one for servers, made of what it says the first time | proved | Context | Context | the tables of contexts, the contexts, their clients and clusters and the table of switchers as one state, with the content of the file as an argument of each call; invariants over all histories (entries of the tables are distinct, each client has a cluster of its own). |
| C106 | A call that is tried again asks the next server for the same | proved | Retry | Retry | the request after an attempt as a function (`attempt`), folded over the list of attempts; induction over the list with what is left of the message (relayed) or of the request and its attachments (clients) as invariant. |
| C107 | The delay before a backup request is the measured latency of the method | proved | Delay | Delay | the items as a fold of calls and reports; what one `addMetricWithKeys` adds to the histogram of a key (dots keep the counters apart, escaped names have no colon), then induction over the calls of an interval; composed with `backup_plan`. |
| C108 | Failover with round robin gets past the servers that fail | proved | Rotation | Rotation | the rounds of failover with the picks of the round-robin counter and what is behind the endpoints (`Ring`, `Site`); consecutive positions are a prefix of a rotation of the list, so one more of them than there are failing endpoints contains a working one (counting); composed with the end-to-end theorem of one round (C106) and with the endpoints of the cluster (C25). |
| C109 | After a call the reply holds the answer | proved | Reply | Reply | what one endpoint call writes into the variable (`stored`), folded over the rounds of failover (`contentAfter`), composed with the end-to-end exchange of C62/C106 and the typed reading of C08; for backup requests the transition system of C28 extended by the returned answers and the variable, with invariants over all executions. |
| C11 | Request and response conversion preserves the call | proved | Convert | Convert | direct computation and map lemmas |
| C110 | A server that fails all its calls is left alone, and tried again | proved | Breaker, LoadBalance | Breaker, BreakerCost, BreakerWeighted, BreakerRandom, BreakerConcurrent | the load balancer with questions that change the state (`Breaker`), the fail-fast states of all endpoints and histories of selections, results and questions; that a question answered no changes no other answer gives the refinement to C25; invariants on the kept time (not before the last call, and one of the times that count), and the rotation of C108 for trying again. The ring of the weighted load balancer selects as its round robin on the list of the endpoints on the ring; the failing attempts are counted server by server, the first ten and the tries after; the random and the consistent-hash load balancer are shown to ask the servers in an order that does not depend on the answers, which is enough for the rest; the sliding window is done on its own, by the invariant that the probe granted in its loop is refused after it. |
| C111 | Attachments set by many goroutines at once are not lost | proved | Attachments | Attachments | the steps of making the map on demand (load the pointer, lock, look again, make, publish, unlock, use) as a machine of any number of goroutines; a simulation of the one-map specification of C20, with the invariant that the pointer, once set, stays, and that only the holder of the mutex sets it. |
| C112 | The pages on the machine and the process show what the system says | proved | MachinePage | MachinePage | the readings of the system as parameters, the two maps by name that the page is made of (`MachinePage`); what a map built by storing a list gives for a name, and arithmetic of the fixed-width numbers |
| C12 | Java object-stream blocks round-trip | proved | Motan1 | Motan1 | round trip by strong induction on length |
| C13 | motan1 frames are checked and proxied faithfully | proved | Motan1 | Motan1 | round trip by strong induction on length |
| C14 | motan1 exception and heartbeat responses are well-formed frames | proved | Motan1 | Motan1 | induction on the stream |
| C15 | URL ext-info round-trip | proved | Url, Routing | Url | split/join lemmas |
| C16 | Integer parameter cache is coherent | proved | Url, Routing | Url | invariant over histories of calls |
| C17 | Method-level parameters override service-level ones | proved | Url, Routing | Url | invariant over histories of calls |
| C18 | Service routing match | proved | Url, Routing | Url | list case analysis |
| C19 | Deep configuration merge precedence | proved | Config | Config | structural induction on configuration trees |
| C20 | Copy-on-write map is linearizable with stable snapshots | proved | CowMap | CowMap | simulation of an atomic map, over all schedules |
| C21 | Switcher notifications happen exactly on change | proved | Switcher | Switcher | induction on histories; invariant over schedules of concurrent sets |
| C22 | Group-weighted load balancing uses groups in proportion | proved | LoadBalance | Weighted | counting lemmas, permutations, modular arithmetic |
| C23 | Weighted round robin (ring mode) is exactly proportional | proved | LoadBalance | Weighted | counting and window arguments |
| C24 | Sliding-window smooth weighted round robin is fair | proved | LoadBalance | Swrr | potential argument over selections |
| C25 | Load balancers only return available endpoints, and find one if it exists | proved | LoadBalance | Select, Swrr | case analysis on draws, permutations |
| C26 | Endpoint arrays for hedged calls are distinct and available | proved | LoadBalance | Select | permutation and distinctness lemmas |
| C27 | Failover makes a bounded number of attempts and never hides a business result | proved | Ha | Ha | induction on attempts |
| C28 | Backup requests are bounded and answer with a real reply | proved | Ha, Rotation | Ha, Hedge | invariants of an event machine; composed with the path of one call (C62) |
| C29 | Fail-fast filter state machine | proved | Failfast | Failfast | invariants over all interleavings of atomics |
| C30 | Filters run in index order | proved | Filters | Filters | sorting and permutation lemmas, induction on the chain |
| C31 | Request timeout is always within the allowed window | proved | Endpoint | Endpoint | case analysis, arithmetic |
| C32 | Endpoint availability state machine | proved | Availability | Availability | invariants over all interleavings of atomics |
| C33 | Responses reach the caller that sent the request, at most once | proved | Stream | Stream | inductive invariant over all steps of the channel/stream/pool machine |
| C34 | Generated request ids do not repeat within a window | proved | Endpoint | Endpoint | bit arithmetic mod 2^20 |
| C35 | Cluster keeps serving on registry updates | proved | Cluster | Cluster | invariants over histories of notifications |
| C36 | Refers filter include/exclude rules | proved | RefersFilter | RefersFilter | induction on filters and rules |
| C37 | Traffic commands select by priority and pattern | proved | Command | Command | induction on commands and routes |
| C38 | Switcher commands are undone when withdrawn | proved | SwitcherCommand | SwitcherCommand | invariants over histories of switcher commands |
| C39 | Server answers each request with its own id | proved | Server | Server | case analysis of the outcome functions; interleaving invariant on the connection |
| C40 | Provider routing on the server | proved | Server | Server | invariants over histories of additions and removals |
| C41 | Dynamic registration survives a crash | proved | Dynamic | Dynamic | invariants over all interleavings with a crash step |
| C42 | Agent serving status survives a restart | partial | Dynamic | Dynamic | exact characterisation of what a restart gives. The full property is false of the code |
| C43 | Zookeeper registration state follows the calls and is rebuilt on reconnect | proved | Zk | Zk | invariants over histories with disconnection and session-loss steps |
| C44 | HTTP location matching follows exact, regexp, longest-prefix order | proved | HttpProxy | HttpProxy | induction on the list of locations |
| C45 | Metric events are neither lost nor double counted | proved | Metrics | Metrics | conservation invariant over all schedules |
| C46 | Circular recorder keeps the latest records | proved | Recorder | Recorder | induction on histories of a ring buffer |
| C47 | Pooled requests and responses carry nothing over | proved | Pool | Pool | invariant of every pooled object over histories |
| C48 | Cloned requests are isolated | proved | Request | Request | separation invariant of a heap over histories |
| C49 | motan1 decoding of arbitrary bytes is contained, but for two shapes of frames | proved | Motan1 | Motan1Panics, Motan1 | the reader of each part (block, run of blocks, string, names, arguments, byte array) is shown to succeed on a relation given without it and to panic on another, in both directions; by induction on the runs. |
| C50 | URL identity and address strings | proved | Url, Routing | Url | invariant over histories; injectivity of joining separator-free fields |
| C51 | Placeholder replacement is exact | proved | Config | Config | structural induction on configuration trees |
| C52 | Pool configuration priority | proved | Config | Config | case analysis on which files hold the key; well-founded recursion over imported locations |
| C53 | An endpoint taken out of service is being brought back | partial | Availability | Availability | invariant over all schedules. The full property is false of the code; proved for executions in which no keepalive gives way to one that has just finished |
| C54 | Dynamic registration requests do what they say | proved | Dynamic | Dynamic | case analysis, split lemmas |
| C55 | HTTP paths are rewritten by the first rule that applies | proved | HttpProxy | HttpProxy | induction on the path and its variables |
| C56 | Frames on a connection are whole | proved | Recycle | Recycle | invariant over all schedules of receiving, attempts, writers and pooled messages |
| C57 | Protobuf serialization round-trip | proved | Pb | Pb | induction on wire bytes; round trips |
| C58 | A service method is called with the caller's arguments | proved | Provider | Provider | case analysis of the reflective call; induction on histories of registrations |
| C59 | The connections of an endpoint are bounded and none is leaked | proved | ConnPool | ConnPool | invariant over all schedules; termination measure for progress |
| C60 | An HTTP service receives the HTTP request a Motan call stands for | proved | HttpProvider, HttpProxy | HttpProvider | case analysis of the conversion; escape/unescape round trips by induction |
| C61 | Hot reload serves exactly the new references and never a destroyed cluster | proved | Reload | Reload, ReloadSubscription, ReloadInterleaved | case analysis of one reload over arbitrary maps of clusters; invariant over all interleavings for liveness of what is routed to |
| C62 | A remote call gives the caller the handler's answer to the caller's request | proved | Call | Call | composition of the theorems on conversion, wire format and server |
| C63 | Agents that relay a call do not show | proved | Relay | Relay | induction on the list of agents: a relation between message and request (resp. answer) that each conversion keeps, with a budget for the size |
| C64 | Weighted selection uses the weights the servers announce | proved | Weights | Weights | invariant of a transition system with the two refreshing goroutines, one goroutine per server asked and the waiting one: whoever has changed a weight is going to notify, or has |
| C65 | Configured references and services become what the configuration says | proved | ConfUrl, Config | ConfUrl, DynParam | induction over the section and over the visited entries, with a description of each URL that every conversion keeps; the loop that inserts while it iterates is an arbitrary sequence of visits |
| C66 | Log lines are kept, in order, and old logs are cleaned up as configured | proved | LogFile | LogFile | transition system with one step per system call of the writer and of the clean-up, outcomes chosen by the schedule; an invariant relates the files to what was written; induction over the sorted files for the choice |
| C67 | Subscribers learn the current servers and commands | proved | Watch | Watch | transition system of the registry, its watching goroutines, zookeeper and the callers; inductive invariant relating what each listener was told, what is in flight and what is registered; the violations are histories evaluated by the kernel, with an invariant where the claim is about all continuations |
| C68 | HTTP requests become calls of services exactly if the services exist | proved | HttpMesh | HttpMesh | the cache, the domains and the handlers as functions of a state, histories as lists of operations; invariant relating each entry of the cache to the last successful discovery; transition system with an invariant for the concurrent callers of getMotanCluster |
| C69 | Consistent hashing keeps a key on one server | proved | HashRing | HashRing | refreshes as a fold over states, with an invariant that the ring is that of the endpoints and, for the agreement, that the parameters are those configured; transition system with one step per read or assignment of a field for calls during a refresh |
| C70 | Starting a server serves and registers every configured service | proved | Export | Export | exporting as a fold over states; invariant on the address of one service (nobody there, or a server it can share; afterwards its provider under its path) preserved by every service that is apart; invariant that providers and registrations come from the configuration |
| C71 | The rate limits hold | proved | RateLimit | RateLimit | transition system with one step per taken token, end of a sleep, clock reading and switch setting; invariant of each bucket with the list of the due times of its tokens, from which the bounds on periods follow; separate invariants for the switch and for the waits |
| C72 | The built-in filters record every answer as the caller gets it and otherwise pass calls on | proved | Observe | Observe | Each filter is a function on handlers (request and world to outcome, request, world). By `C30` the chain is a sorted nesting; the indices split it into three layers (access log and fail fast, metrics and trace, rate limit and circuit breaker), each characterised by induction on the number of filters; the property follows by composing them. Violations are concrete runs. |
| C73 | A client with direct addresses calls those servers and no others | proved | Direct | Direct | A relation between texts and the addresses they mean, and one between texts and entries of the variable; the parsers are shown to invert both (splitting a join, trimming a padded word), the table and the range over it by permutation, the cluster by composing with the model of `Notify` (C35). |
| C74 | A process and its local mesh agree about what is registered | proved | Mesh | Mesh | A machine of the process and the agent (the model of the agent's dynamic configuration); one invariant: recorded services, listed nodes and the wanted set agree, preserved by each call, where retried requests are handled by an invariant of the retry loop (serving a request again changes nothing). Uses the theorems about requests of the agent's dynamic configuration. |
| C75 | Reports to graphite tell every metric once, in lines that can be read back | proved | Graphite | Graphite | Texts are folded into packets by a loop with an invariant (closed packets and the open one are runs of the segments, each within the limit or alone); reading back peels off fields that do not contain the character that ends them; totals by the conservation invariant of the metrics pipeline (C45) and the kinds of registered metrics. |
| C76 | The serving status, the registries and the failback agree | proved | Serving, Told | Serving, Told | State machine over registries, the status, calls that have yet to store it, and the failback with its snapshot of statuses; one lemma says what a step does to a service, one what it does to the failback; an invariant ties each status and each snapshot to the last switch; a second one says that failed services lie ahead of the round. Model/Told.lean: the same over registries of the types of the extension factory, where the type decides whether anything is told. |
| C77 | The CGI provider hands a request to a program and its answer back | proved | Cgi | Cgi | Functions on byte strings: lemmas about the first occurrence of a separator give the place where the header ends; a fold lemma gives the last line about each name; the environment is looked up name by name. |
| C78 | The httpx provider and the RPC door of the HTTP proxy pass on what they are given | proved | HttpX | HttpX | Case analysis of the calls; the renaming of a header is proved to be the unique one the inductive specification allows; membership in the list of headers is an equivalence; the parameters by C60's lemma on the query string; attachments by lemmas on storing a list into a map. |
| C79 | Access log entries are written once, unchanged and in order, or counted | proved | AccessLog | AccessLog | State machine over callers, writing goroutines, channels and the pool; a counting invariant (each entity is in one place, so writing reads what was logged); an invariant for a single switch (no worker, being made, or exactly one worker on the one channel, whose buffer follows what was written); lines by peeling off fields. |
| C80 | The agent starts with the parameters its command line, environment and configuration give | proved | Params | Params | Functions of the three sources; case analysis of each setting (absent, right type, wrong type); induction on the range of ports; the decimal lemmas of the basic library. |
| C81 | The management interface does what it is told, for those who may | proved | Manage | Manage | Folds over histories with one lemma per part of the state saying which request can change it; lookups in the mux by induction on the order of registration; the longest pattern by induction on the length of the path. |
| C82 | Tracing records the requests it is asked for and gives each record once | proved | Trace | Trace | State machine over the policy, the holders and the requests between deciding, reading the holder and recording; a counting invariant over all holders ever made; induction on properly nested schedules; induction on the spans with what came before. |
| C83 | A cluster subscribes to a group that fits the configured one and, if there is such a group, has nodes | proved | IdcGroup | IdcGroup | Induction over the loops with membership and minimality invariants; uniqueness of the first placeholder; the mean via sums and bounds invariant under permutation; for the cache, an invariant naming the last successful call. |
| C84 | Measuring a node counts its replies, keeps to the count and the time, and ends cleanly | proved | Ping | Ping | State machine of the two goroutines with the channel between them; one invariant over all schedules, relating the state to the packets read and taken in the schedule; explicit continuations for returning; a state without successors for the hang. |
| C85 | Filters get a copy of what is logged and never hold up the program | proved | LogFilter | LogFilter | State machine of the first channel, the distributing goroutine (filters visited in any order) and one Go channel per filter with waiting readers; the stream on its way to a filter is shown to grow by exactly what is logged, step by step; explicit schedules for progress. |
| C86 | Commands to the agent reach every cluster, once per change | proved | AgentCommand | AgentCommand | Functional model of one notification with handlers and registries that may panic; induction over handlers, registries and histories; concrete counterexamples for the three findings. |
| C87 | The configuration read at the start and at a hot reload | proved | Startup | Startup | Functional model of the choice and reading of the configuration, joined to the reload model of C61; case analysis, and the reload theorems of C61 for every reachable state. |
| C88 | Client calls that do not wait | proved | Client | Client | Concurrent machine of callers, goroutines and channels; snoc induction with an invariant that counts each result on each channel and ties its error to the one answer in the history. |
| C89 | Snapshot files of registries | proved | Snapshot | Snapshot | History machine of saves and ticks; snoc induction ties the memory to the last save of each registry and key, fold lemmas over the two loops of the writer give the files for every iteration order. |
| C90 | Dynamic metadata of endpoints | proved | Meta | Meta | History machine in which a question is one step up to the call and one when it returns; an invariant ties every cache entry and every result to an answer in the history with its time, a second induction shows entries are only replaced by later ones. |
| C91 | Settings of connections, reverse proxies and clients of an agent | proved | EndpointConf | EndpointConf | Pure functions of the URL; each read of a parameter is tied to the parameter through the coherence of the caches (C16), the composition with the URLs of dynamic registration (C54) and with the availability machine (C32) by their theorems; induction on the outcomes of connecting. |
| C92 | Operations that run at the same time all finish | proved | Locks | Locks | A lock machine; a rank of all locks that depends on which clusters are destroyed and which paths are given up; every operation takes locks in the order of ranks; a blocked goroutine leads to one of higher rank that can go on. The violations: a pair waiting for each other stays so in every run, and holds up who needs their locks. |
| C93 | An nginx configuration is translated as it is written | proved | Nginx | Nginx | A grammar of written configurations with its meaning, apart from the reader; induction over units, words, gaps and, mutually, directives and blocks; an invariant of the reader (escapes are complete) for the absence of panics; the translation against an inductive specification of locations. |
| C94 | Goroutines that use the same object do not race for its memory | proved | Race | Race | Operations as programs over locks and fields (branches and loops open); executions of any number of goroutines that the locks admit; `points` (locks held at each action) proved sound by induction on what a program does; mutual exclusion by induction on executions; so conflicting accesses are separated by a release and an acquisition. Races are exhibited by executions that a recogniser, proved sound, accepts. |
| C95 | An extension is found under the name a configuration asks for, and a registry is shared by all who ask for it | proved | Ext | Ext | The factory as a state with its operations; a general lemma on the last operation of a history that sets a key, by induction from the end of the history; an invariant for registries (kept ones are those made, under their identity); tables shipped evaluated by the kernel, numbers by injectivity of the decimal form. |
| C96 | The status page shows the calls of the last period | proved | StatusPage | StatusPage | The page computed from the state of the metrics model of C45; keys under a name characterised by the last colon; sums over permutations and over the updates of a registry with unique keys; the invariant of C45 for what the readings are. |
| C97 | Logs are rotated after each full hour, once | proved | Hourly | Hourly | The goroutine with a monotonic clock for sleeping and a wall clock that may be set; an invariant by induction over histories: while asleep, the remaining sleep is the distance to the first full hour after the last reading. |
| C98 | The agent's start waits for its clusters within bounds, and what is told to all clusters reaches those that serve | proved | Start | Start | The start, the goroutines of the references, the two tables and reloads as a transition system; invariants by induction over all histories. |
| C99 | A request that a server has read is handled, and once | proved | Workers | Workers | The pool of workers as its library documents it, with the waiting connections; a permutation invariant for where each request is, and a counting invariant (a connection waits with at most one request) by induction over histories. |

(The notes in `MANIFEST.json` say under which conditions each property is proved.)

## Where the code does not do what the property says

For these cases the negation is proved on a concrete execution of the model, and the property is proved with the case excluded by an explicit hypothesis.

* C01 `readByte_past_wpos_counterexample`: The read side of a buffer still being written is *not* protected by the write position: `ReadByte` returns a stale byte where `ReadUint16` would report "not enough".
* C04 `negative_version_counterexample`: The range check does not cover negative numbers: version `-1` is accepted and reads back as 31.
* C08 `simple_empty_target_counterexample`: Finding: an empty container does not reach a typed target, which keeps its old content.
* C08 `simple_int_keys_counterexample`: Finding: a generic map with the `int` key 1 and the `int64` key 1 loses an entry.
* C09 `simple_decode_panic_counterexample`: Finding: such bytes exist (a map with one entry whose key is an empty byte array).
* C10 `simple_multi_truncated_counterexample`: Finding: a byte string cut inside the last argument can be accepted as a shorter list: the truncated second argument (an array cut after its first element) vanishes without an error.
* C100 `spins_violated`: What a user may expect and does not get: between `Close` and the send the loop does not wait, it fails and logs as often as it gets the processor. (The same holds while the system refuses connections.)
* C101 `query_violated`: Not so for a user who adds a query: whatever is asked, the answer is 404.
* C101 `answered_ok_violated`: What a user may expect and does not get: the answer is 200 and "ok" although the agent refused to register a service of its own configuration file. (`doRegister` only logs the error.)
* C101 `runtime_space_violated`: Nor are spaces after the commas allowed: the second key is left out without a word.
* C102 `local_reply_violated`: (false of the code): "the client gets the answer". A client's call of a service in the same process succeeds, the service has answered, and the reply is as it was.
* C102 `local_late_violated`: (false of the code): "a service can be called once it is registered". An endpoint made before the registration answers every call, for ever, with an exception.
* C102 `local_gap_violated`: (false of the code): "an endpoint that is initialized can be called". While another endpoint of the same path is initialized, the methods of the service are not found.
* C102 `local_url_violated`: (false of the code): "the provider behind an endpoint has the endpoint's URL". Two endpoints of one path share it, and its URL is that of the one made last.
* C102 `grpc_kind_violated`: (false of the code): "failures of the server are tried again, answers of the business are not". A refusal by the business logic (code 3, `InvalidArgument`) is tried again; a failure of an unknown kind (code 2) is not.
* C102 `grpc_no_argument_violated`: (false of the code): "every call is answered". A call without arguments panics.
* C103 `parents_refused_violated`: C103 fails if a missing node on the way cannot be created: the function calls itself without end, which the process does not survive.
* C104 `page_misconfigured_violated`: What a user may expect and does not get: one service that is to be passed on, but whose `proxy` setting is wrong or names a protocol without endpoints, takes the whole page away, whatever else the agent has. (Its provider stays without an endpoint, and the service is exported all the same.)
* C104 `page_start_violated`: Nor is it given while the agent starts.
* C104 `page_registries_violated`: Nor are all registries shown: of two of one kind that are given by their addresses only the last is.
* C105 `server_context_lost_violated`: a server whose context exists is given nil when the file cannot be read or parsed at the moment.
* C105 `client_placeholders_violated`: an agent replaces placeholders by the parameters of its pool, and a client and a server do not. What the file says at a place stays, whether or not the parameter has a value.
* C105 `start_again_violated`: starting a context again makes a second cluster for every reference; the first ones are still there, and no client has them.
* C105 `switcher_types_violated`: one switcher of `switcher` that is no boolean makes the call panic; one of `switchers` takes all the others away, without a word.
* C106 `retry_keeps_group_violated`: It is not true that the attempts made before have no influence on the group: an endpoint whose URL names no group is asked for the group of an endpoint tried before it, and not for the group of the caller.
* C107 `delay_other_application_violated`: If the switch is off and the application of the request is not that of the endpoint's URL, the calls of that application are not found: whatever they took, once there has been a report the delay is ten milliseconds.
* C107 `delay_other_service_violated`: The group and the service are written together without anything between them: the calls of another group and service count too.
* C107 `delay_other_group_violated`: A call that a server of another group has answered is written down for that group (the connection puts the group of the endpoint into the request): the latency of a service all of whose endpoints are of another group than the one asked for is never known.
* C108 `rr_failover_shared_violated`: Of two servers one fails and one works, and there is one retry. If another call selects a server between the two rounds the counter comes back to the failing server: it is asked twice, the other one not at all.
* C108 `rr_failover_wrap_violated`: The counter is a number of 32 bits. With three servers the step from 2^32 - 1 to 0 stays at the same server: it is asked twice although the two others work and nobody else is calling.
* C109 `client_reply_type_violated`: The handler answers a string and the caller's variable is a number: the call ends without an error, and the variable keeps what it held.
* C109 `hedged_reply_other_violated`: All backup requests write the caller's one variable. The answer of the call can be that of one server while the variable holds that of another.
* C109 `hedged_reply_late_violated`: The variable can change after the call has returned to its caller, when a server that was asked later answers.
* C109 `hedged_reply_error_violated`: The same after a call that ended with an error.
* C11 `malformed_rid_counterexample`: A malformed `M_rid` does not fall back to the id of the header: the id becomes 0.
* C110 `breaker_page_violated`: Looking at the runtime page counts as trying. One of two servers has failed ten times and works again. If the page is looked at every eleven seconds and the calls come after it, the server is never given a call again, however long this goes on.
* C110 `breaker_down_violated`: So does a selection while the server has no connection: it is back a second later, and still is not tried for ten seconds.
* C110 `breaker_business_violated`: Answers of the service that refuse what the caller asks for are counted as failures of the server: after ten of them it is left alone, though failover takes such answers as good ones.
* C110 `breaker_array_violated`: A list of endpoints (`SelectArray`) asks the first one twice, and the second answer is no. Of a cluster with one server that has failed ten times the list is empty at all times, also when a call would be given to it.
* C110 `breaker_window_violated`: The sliding window of the weighted load balancer asks the endpoint it has chosen a second time, and after a probe has been granted the second answer is no. So with at most fifty endpoints a server that has failed ten times is never given a call again: however long it works again, however many calls are made, and whatever the weights and random numbers are. (Only a call that another cluster makes to the same address can bring it back.)
* C110 `hash_single_violated`: it is given every call, however often it has failed and even without a connection.
* C112 `machine_new_violated`: an interface that comes up in the second is shown with all it has ever sent and received.
* C112 `machine_restart_violated`: if counters start again, when an interface is made anew under its name, the page shows a number near 2^64.
* C112 `machine_all_violated`: an interface that has the name of the sum is compared with the sum.
* C112 `machine_panic_violated`: the page of the machine panics exactly if the system does not say one of memory, swap space, load and host; the page of the process if the second reading of what it has read and written fails.
* C12 `block_reader_overrun_violated`: C12, the exception: behind a content of 2048, 3072, ... bytes the reader swallows one byte of what follows if that is no block.
* C13 `reencode_separate_block_counterexample`: a request without arguments whose attachments come in a block of their own is decoded, but its re-encoding has lost the service and cannot be decoded.
* C13 `request_block_boundary_counterexample`: when the names fill 2048 bytes exactly, the first argument is lost. The witness has a service name of 2042 bytes and two `null` arguments, and is decoded as a call with one argument.
* C13 `long_string_violated`: strings of 32768 bytes or more are written with an unsigned length but read with a signed one: the reader returns the empty string and leaves the text where the next field is expected.
* C14 `exception_text_too_long_counterexample`: a message of 65536 bytes is announced with length 0.
* C14 `exception_response_empty_counterexample`: the empty message yields no frame at all.
* C15 `extinfo_path_slash_counterexample`: a path with a slash is cut at the slash.
* C15 `extinfo_equals_counterexample`: a parameter whose value has an equals sign is lost.
* C16 `merge_int_stale_counterexample`: a parameter stored with MergeParams after it was read keeps its old integer value.
* C17 `merge_method_param_unseen_counterexample`: a method parameter added with MergeParams after a read is not seen.
* C21 `switcher_order_counterexample`: What does not hold: notifications of two changes can arrive in the wrong order, so that the last value a listener hears is not the value of the switcher.
* C21 `switcher_concurrent_twice_counterexample`: What does not hold: two overlapping calls can both announce one change.
* C22 `group_window_wrap_counterexample`: What does not hold: when the counter wraps around, a window can choose one group twice and another not at all.
* C25 `hash_single_unavailable_counterexample`: What does not hold: with one endpoint consistent hashing returns it although it is not available.
* C25 `window_select_misses_counterexample`: What does not hold: the fallback skips the position it starts from, so the only available endpoint can be missed when its current weight is not positive.
* C26 `hash_array_empty_counterexample`: What does not hold: the array of the consistent-hash load balancer can be empty although endpoints are available (all three nearest are down), and selecting one from no endpoints at all panics.
* C26 `wrr_array_empty_counterexample`: What does not hold: the weighted round robin load balancer never offers an array, whatever is available.
* C28 `backup_waits_for_deadline_counterexample`: What a user might expect but does not get: when all endpoint calls have failed at once, the caller still waits for the deadline, because the last error was already taken from its channel inside the loop. Here with one retry: both calls have ended with errors, and nothing but the deadline can happen.
* C28 `backup_budget_share_counterexample`: The budget is a number per round of up to 101 calls, not a share of the calls made so far: with the default limit of 15, all of the first fifteen calls may be retried.
* C29 `failfast_success_lost_counterexample`: What does not hold under all interleavings: "every success restores it". The tenth failure is counted, then a success is counted, sees the endpoint still available and ends; then the failing call marks it unavailable. All calls have ended, the last counted result is a success, and the endpoint is unavailable.
* C31 `request_timeout_zero_counterexample`: What goes wrong with a configured timeout of one millisecond: half of it is zero, so that a request whose own timeout cannot be read as a number gets the timeout zero.
* C31 `request_timeout_v2_zero_counterexample`: The older endpoint type even does this to a request that asks for nothing.
* C32 `available_after_destroy_counterexample`: an endpoint that was destroyed while connecting becomes available afterwards and stays so, with no goroutine running.
* C32 `connecting_after_destroy_counterexample`: `Destroy` stops one goroutine only. When a keepalive is running while the endpoint is still connecting, it may be the one that is stopped, and the other goes on trying for ever.
* C33 `failed_send_leaks_counterexample`: a call whose `Send` fails is left in the connection's table for ever, although its stream went back to the pool.
* C33 `unsolicited_response_counterexample`: C33, a consequence when a server sends an id it was not sent: another call, on another connection, to another server, returns the message as its response.
* C35 `duplicate_server_leaks_counterexample`: A server named twice in a notification gets two endpoints; at the next notification one of them is dropped without ever being destroyed: its connections leak.
* C35 `destroy_leaks_filtered_counterexample`: `Destroy` only reaches the endpoints in use: one the filter keeps out of use is never destroyed.
* C35 `notify_after_destroy_counterexample`: A notification that arrives after `Destroy` (it waits for the lock) creates endpoints nobody will destroy.
* C35 `kept_endpoint_ignores_parameters_counterexample`: A kept endpoint keeps the parameters it was created with: new parameters a registry announces for a known server are ignored.
* C37 `routes_remove_all_counterexample`: Routes that remove every node do not fall back to the own group: the cluster is given the weights only.
* C37 `blind_counterexample`: With a command that merges only another group, which has no nodes, changes of the own group are not passed on, although its nodes are being used.
* C37 `duplicate_group_leaks_counterexample`: A command naming a group twice leaves a subscription that is never cancelled.
* C37 `degraded_after_unsubscribe_counterexample`: Unsubscribing leaves a degraded cluster degraded, with no command in force.
* C37 `mixed_groups_ignored_violated`: C37 does not hold of a registry without commands: a cluster whose configuration names further groups is given its own group alone when it starts, and all the groups only once its own group is announced again, even if unchanged.
* C38 `clusters_interfere_counterexample`: The saved values are shared by all clusters: a cluster without a switcher command that processes any command undoes the switcher command still in force in another cluster. (The two events are those of different clusters; after them cluster 0's command is still `a:true`.)
* C39 `v1_undecodable_unanswered_violated`: a motan1 request that cannot be decoded gets no answer at all (although an answer is prepared for it in the code), and the connection stays open.
* C39 `v1_plain_response_unanswered_violated`: a motan1 request whose handler returns a normal response that was not received in a motan1 message (a local provider, or a motan2 backend) gets no answer.
* C40 `agent_key_collision_counterexample`: with underscores in group or service names, two different services share a key, and a request for the one is answered by the provider of the other.
* C40 `agent_stale_removal_counterexample`: the agent's handler removes whatever is registered under the key. When a service is exported again before the old export is withdrawn, withdrawing the old provider stops the new one (the default handler keeps it).
* C41 `unregister_keeps_exporter_violated`: An unregistration never takes the service down: the exporter is stored under the identity with the registry, and deleted under the identity without it. So after it the same exporters are there, and the service is still registered and still answers.
* C41 `suffix_unregister_violated`: With a group suffix in the environment, registering a node and unregistering the same node leaves it registered: the suffix is added by the registration only.
* C41 `crash_while_saving_violated`: The file is rewritten in place: a crash while a later request saves loses the nodes of requests that had returned long before.
* C41 `placeholder_recovery_violated`: A subscribed group with the placeholder `${idc}` is stored under its unresolved name and saved under its resolved name; after a restart the same subscription is no longer recognised, and subscribes once more.
* C42 `status_survives_violated`: an agent set unavailable serves again after a restart with recovery.
* C43 `session_available_again_counterexample`: a service that an operator made unavailable is available again in the next session, if all services were once made available with one call (nil was recorded for the others).
* C43 `session_revives_unregistered_counterexample`: an available service that was unregistered comes back in the next session.
* C43 `session_nil_left_counterexample`: services that were all made unavailable are available in the next session, because of what was recorded for one that was unregistered.
* C43 `agent_node_stays_counterexample`: the node of an agent stays when the agent is unregistered.
* C43 `both_nodes_counterexample`: `Available` and `Unavailable` of one service running at the same time can leave it with both nodes, so that clients still call it.
* C43 `discover_panics_counterexample`: one node whose data is not the ext-info of a URL makes `Discover` panic, whatever other nodes there are.
* C44 `empty_prefix_counterexample`: the empty prefix, which matches every path, is never picked.
* C45 `late_event_lost_violated`: a worker that got the metric before the snapshot was taken adds to it after the snapshot was read: the event is in no snapshot as it is read, neither before nor after.
* C45 `names_run_together_violated`: groups and services whose names run together are counted as one: the calls of service `c` of group `ab` appear as calls of service `bc` of group `a`.
* C45 `escaped_alike_violated`: methods that differ in characters `Escape` replaces are counted as one.
* C45 `kinds_clash_violated`: the second of two kinds of events for one metric is lost in a panic.
* C46 `concurrent_readers_violated`: two readers at the same time share the buffer their names are made in: here the first names its record `:7` and not `0:7`.
* C47 `async_flag_survives_violated`: the asynchronous flag and the time stamps of a call are still there in the next.
* C47 `encoding_survives_violated`: the encoding of a message is still there in the next, until that is encoded.
* C48 `clone_arguments_overwritten_violated`: a clone shares the array of its arguments with the original: when the original is released and used for the next request, the clone has the argument of that request.
* C48 `clone_handler_overwritten_violated`: a finish handler added to a clone replaces the one that was added to the original.
* C48 `clone_attachment_not_sent_violated`: an attachment set on a request that is forwarded is sent; set on its clone it is not.
* C48 `clone_drops_fields_violated`: a clone does not know its caller's address, nor that it is asynchronous or came by the first protocol.
* C49 `request_decode_panic_counterexample`: C49, what is missing, for requests: such a frame does make the decoder panic.
* C49 `response_decode_panic_counterexample`: C49, what is missing, for responses: a string response that announces more bytes than there are makes the decoder panic.
* C50 `direct_identity_stale_counterexample`: a direct URL whose address parameter changes after its identity was read keeps the old identity until ClearCachedInfo.
* C52 `location_over_service_counterexample`: an HTTP location imported by a later service overrides an earlier service, although HTTP configuration is documented as weaker than service configuration.
* C53 `recovery_lost_counterexample`: C53, the defect behind `recovery_pending_partial`: an endpoint that nobody destroyed, connected, is unavailable, and no goroutine is seeing to it. A call failed while a heartbeat was succeeding, and its keepalive gave way to the one that had just finished.
* C54 `group_parameter_ignored_violated`: a body with the group among its parameters, which the code means to read, is accepted but nothing is done.
* C55 `variable_in_value_counterexample`: a value that looks like a variable of the path is replaced in turn.
* C55 `rule_trailing_space_counterexample`: a rule with white space at its end has a fifth field and is ignored.
* C56 `retry_rewrites_frame_violated`: The first attempt waits in its channel's queue when the request times out there; the second attempt encodes the same message again, and the first channel writes the second attempt's stream id.
* C56 `retry_loses_body_violated`: The first attempt was written, so that the message may be released; the second one still waits when the request fails and the message is released: its channel writes a head that promises five bytes, and none of them.
* C56 `retry_mixes_requests_violated`: As before, but the pooled message is reused before the second channel writes: it sends the first caller's head with the body of another caller's request.
* C57 `pb_int_pointer_untouched_violated`: The value comes back as an `int64` and the pointer is left alone, for every number.
* C57 `pb_array_refused_violated`: No array with an element can be serialized, and one that begins with nil panics.
* C57 `pb_array_aliased_violated`: An array "one", "two" sent by another implementation is read as "two", "two": all elements are the same object.
* C57 `pb_array_read_violated`: Whatever array another implementation sends, the slice behind the pointer gets as many elements as were sent, all of them the same message object, which holds the messages of the array merged one over the other; a nil in the array becomes that object too.
* C57 `pb_array_cut_unnoticed_violated`: An array cut inside an element is read without an error, and an argument after the array is lost to it.
* C57 `pb_array_parameter_panics_violated`: A provider's method that takes an array of messages makes the decoder panic on every non-empty array.
* C58 `provider_int_never_runs_violated`: A method with an `int`, a `uint` or a pointer to a kind among its parameters never runs, whatever arrives: the decoder makes an `int64`, a `uint64` or a value, which Go refuses to pass.
* C58 `provider_nil_panics_violated`: nil, although it can be serialized, cannot be passed to any parameter: the call panics.
* C58 `provider_no_name_panics_violated`: A request without a method name panics in every provider.
* C58 `handler_paths_shared_violated`: Two services with one path (in different groups, say): the requests for the first are answered by the second as soon as it is exported, and by none after it is unexported although the first still is exported.
* C59 `pool_get_panics_violated`: `Get` panics if the pool is closed after a broken or missing connection was taken from it.
* C60 `http_header_clash_violated`: Two attachments meant for the same header: the value sent depends on the order in which the map is visited.
* C60 `http_form_name_injected_violated`: The names of a form's entries are not escaped: a name can add a parameter of its own.
* C60 `http_no_argument_panics_violated`: Without any argument, the ordinary client panics.
* C60 `http_failure_as_biz_violated`: A failed exchange is reported as an exception of the service itself (type 2), like an answer of the service.
* C60 `http_rewrite_misses_arguments_violated`: A rule that puts a query variable into the path does not see the arguments of a GET, although they are sent as the query: with the variable in the attached query string the path is `/users/7`, with the same variable as argument the same query is sent to `/users/{uid}`.
* C61 `reload_zookeeper_violated`: Reloading an unchanged configuration replaces the cluster of every reference to a zookeeper registry: the subscription wrote `nodeType` and the host into the URL, so the new configuration does not look the same.
* C61 `reload_placeholder_violated`: The same for a group with a placeholder, whatever the registry.
* C61 `reload_refused_subscription_violated`: A dynamic subscription to a configured reference is refused but remembered. The next reload counts the service twice, and requests that name no group, answered before, are refused.
* C61 `reload_lost_subscription_violated`: A subscription made while a reload runs is lost: its cluster is destroyed and the service is unknown, although the subscription is remembered.
* C61 `reload_leak_violated`: A reload between the two halves of a subscription gives the service two clusters; the next reload drops the second one without destroying it.
* C64 `late_weight_never_used_violated`: The goroutine that asks it goes on after the caller has given up and writes the weight, which nobody is told. At every later tick the server answers the same, so the weight does not change, and the load balancer is never told: the endpoint is used with weight 10 although its server announces 40 every time it is asked, for any number of ticks.
* C64 `late_answer_crashes_violated`: **The process can die of a slow server.** The last answer comes just when the caller gives up: the goroutine that has waited for it is sending on the channel that the caller closes, and panics; nothing recovers.
* C64 `unsupported_for_ever_violated`: **A server that once had no metadata service is not asked again**, although the refusal is remembered for 30 seconds only (meta/meta.go:147): the tick starts no goroutine for the endpoint 1.
* C64 `refresh_period_panics_violated`: **A refresh period of 0, or a negative one, makes the process die**, and so does one that is too long for 64 bits of nanoseconds; others do not.
* C65 `empty_port_violated`: a port left empty is not read as 0, as the code means it to be: the program stops.
* C65 `no_group_violated`: a service whose list of groups names none stops the program.
* C65 `service_lost_violated`: a service can disappear: the second group of `a` takes the place of the service `a-0`.
* C65 `subscription_lost_violated`: so can a subscription: the copies of `a` in the group `bc` and of `ab` in the group `c` have the same name.
* C65 `stale_identity_violated`: a service with a basic entry keeps the identity it had before its group was settled, because writing the log line has cached it: here that of the group `g1,g2`, for the service in the group `g1-t`.
* C65 `pattern_choice_violated`: when two patterns match, the value depends on the order in which the map is visited.
* C65 `pattern_hides_violated`: a pattern that matches but has no value can hide one that has: the default is taken.
* C66 `same_hour_violated`: **Violated.** The time in the names of the files moved aside has the precision of an hour. If the log is rotated twice within an hour (by `Rotate`, or because it is full), the second file moved aside replaces the first: what `Write` said it had written is in no file any more.
* C66 `default_size_violated`: **Violated.** The maximal size is documented to default to 100 megabytes; it is 2^50 bytes.
* C66 `stat_failure_violated`: **Violated.** If `stat` fails for another reason than that the log file does not exist, the log file is truncated: what it held is lost.
* C66 `odd_name_violated`: **Violated.** A file whose name begins like a backup and ends like one, but is too short to be both, makes the background goroutine panic, which ends the process: with the log file `a.b.b-c`, a file `a.b-c` next to it is enough.
* C66 `local_time_violated`: **Violated.** The names hold local times but are read as UTC: west of Greenwich the files seem older than they are. Eight hours west, a file moved aside 20 hours ago is removed although files are to be kept for a day.
* C67 `late_server_violated`: A client subscribes before the first server of a service has registered: the node does not exist, and nothing is watched. When servers appear, the client is not told, whatever else happens, until the registry has reconnected (or the client discovers again). A second subscriber does not help.
* C67 `session_gap_violated`: The session is lost, the servers change, and a session is obtained again: the watches are set again, but what was read then is thrown away, and the client keeps the old list although nothing has failed.
* C67 `resubscribe_violated`: The last listener unsubscribes and another subscribes at once: it takes over the channel that the old goroutine is about to close, and its own goroutine ends. The next change reaches nobody.
* C67 `read_failure_violated`: One read fails after a watch has fired: the goroutine keeps the old channel, which never yields an event again, and later changes reach nobody.
* C67 `node_deleted_violated`: The node of a service is deleted and created again: the event is neither a change nor the end of the watch, and the goroutine keeps the closed channel.
* C67 `discovery_race_violated`: The servers change while a new cluster is between its discovery and the use of the result: the watcher tells it of the new list first, and then the cluster replaces that by the old one.
* C67 `unsubscribe_hangs_violated`: The session was lost, and a listener unsubscribes after the new session has been obtained but before the watches are set again: there is no goroutine left to receive, and the registry hangs for good, for all services.
* C67 `destroy_hangs_violated`: A cluster is destroyed while a notification of it begins: `Destroy` holds the cluster's lock and waits in `Unsubscribe` for the watcher, which waits for the cluster's lock. The registry hangs for good.
* C68 `client_http_body_violated`: (false of the code): "the client gets the answer of the HTTP service". It never does: whatever the HTTP server answers, the body is lost. With a reply that is a byte slice or a string the call panics, and otherwise the response has no value.
* C68 `mesh_repeated_violated`: With one retry: a server received the request and has perhaps executed it, but no answer came in time; for the retry there is no endpoint that could be called. This is reported as if no server had been called at all, and the request is sent once more by HTTP.
* C68 `mesh_self_violated`: A request that is addressed to the proxy itself is not rejected, but passed on, if the host is written with a capital letter, or if there is a default domain.
* C68 `mesh_clash_violated`: Two groups share an entry of the cache, because the registry's identity and the group are joined without a separator that they could not contain: a request for one domain is made a call of a service that was never found in its group.
* C68 `mesh_destroy_violated`: `Destroy` while a request is being made: the request goes on with a cluster that was destroyed; or it makes a cluster that nobody will destroy, also when another request had made one before.
* C69 `ring_history_violated`: Without a configured number of partitions, two clients that know the same two servers send a key to different ones for ever, because one of them has known more servers before.
* C69 `ring_panic_violated`: A call panics: if the number of endpoints falls to one while it is under way; and if there are no endpoints at all (so that it reports an internal error instead of saying so).
* C70 `register_nil_violated`: for a nil pointer: `RegisterService` panics instead of returning an error.
* C70 `export_busy_violated`: The port is taken by another process: nobody is served, and the service is registered all the same.
* C70 `export_zero_violated`: Two services on one port, one of them writing it with a leading zero: both are registered on that port, the second is not served there.
* C70 `export_path_violated`: Two services of different groups with one path on one port: both are registered, the later one answers for both.
* C70 `export_proxyHost_violated`: A service in front of a process behind a Unix socket listens on some free port, and is registered with port 0.
* C70 `export_parts_violated`: An export text of three parts is dropped without a word: the service is served on the default port.
* C71 `limit_shared_violated`: 
* C71 `limit_timeout_violated`: 
* C71 `limit_wait_violated`: The two waits add up: a call with a timeout of one second, to a service with a timeout of one second, is passed on two seconds after it arrived, though nobody woke up late.
* C72 `observe_biz_violated`: With a circuit breaker as it is by default, an exception of the business logic reaches the caller as a failure of the service with code 400; and failover, which passes the former on, calls again.
* C72 `observe_trace_violated`: Without a recording function, the panic of the callee is lost: the caller sees another one.
* C72 `observe_unseen_violated`: A cluster whose HA strategy (or a filter behind) panics answers with a failure that is neither counted nor logged.
* C72 `observe_convert_violated`: The client is told that the call failed, but the access log of the server has a line that it succeeded.
* C72 `observe_crash_violated`: end the process; without the circuit breaker the server answers.
* C73 `direct_ambiguous_violated`: if two entries apply: which one is used depends on the order in which Go goes over the table.
* C73 `direct_socket_violated`: for a socket behind a blank: the socket is left out without a word, though blanks are allowed around `host:port`.
* C73 `direct_ipv6_violated`: for addresses of IP version 6: they are left out.
* C73 `direct_port_violated`: for a port that is none: the server is given to the client.
* C73 `direct_at_violated`: in the variable for a socket with `@` in its path (an abstract socket): what comes before is taken for the group, and no server is left.
* C74 `mesh_unheard_violated`: if the answer to an `UnRegister` is lost: the agent has removed the service, the process has it recorded, and registering it again does nothing.
* C74 `mesh_restart_violated`: if the agent restarts without its records: the process goes on as if its services were registered, and registering them again does nothing.
* C74 `mesh_shared_violated`: for two servers of one service in one process: they are one node for the agent, so when one of them is unregistered the other one is gone too.
* C74 `mesh_no_port_violated`: if the agent does not tell its port in the three tries at the start: every service is looked for at port 0 from then on.
* C75 `graphite_single_name_violated`: for what is recorded under a single name, as `AddCounter`, `AddHistograms` and `AddGauge` do: it is never reported, because the colons a name would need are escaped.
* C75 `graphite_ipv6_violated`: on hosts with IPv6 addresses: only the part up to the first colon is reported, so that the lines of different hosts have one name.
* C75 `graphite_server_names_violated`: if two graphite servers have one name, or a server has none: one of them gets no reports.
* C76 `agent_status_violated`: Two calls to an agent at a time, one that lists and one that withdraws: the services are withdrawn, the status says that they are listed, and so does the page.
* C76 `failback_does_nothing_violated`: (a finding). If the application registers no type of registry of its own, a registration that failed is never repeated: after all services have been switched, any number of rounds of the failback leaves every service as the switch left it. And the status page says that all went well and lists no service, whatever failed.
* C77 `cgi_status_lost_violated`: A program that fails is reported as a success: nothing of the response depends on the status it gave.
* C77 `cgi_status_panics_violated`: An answer without a space in `Status:200` makes the provider panic.
* C78 `httpx_status_lost_violated`: The status of the upstream's answer is lost: an answer 500 is a success of the call, and no attachment tells.
* C78 `door_header_wins_violated`: A header can redirect the call: the group of the form is not the group the mesh is asked for.
* C78 `door_no_value_violated`: A call that succeeds without a value (a service that returns nothing) is answered like a broken proxy, after the call was made.
* C79 `access_twice_violated`: Switching asynchronous logging on a second time can lose entries: the goroutine that was to write them looks at the new channel. The entry is neither written nor counted, and all goroutines are at rest.
* C79 `access_line_violated`: Without the hypothesis on the fields, different entries have the same line: a method name with a separator in it reads as a description.
* C80 `params_mport_violated`: An environment variable that is no number hides the configured management port.
* C80 `params_logdir_violated`: The directory of the log given as `-log_dir=x` is ignored.
* C80 `agent_mport_violated`: The management port on the command line is not the one the agent registers with.
* C80 `agent_application_violated`: Without application and group the process is left without application, although the agent's URL has one.
* C80 `conf_bool_violated`: The number 1 is not true, although the text is, and the comment says so.
* C81 `manage_permission_violated`: Full claim (false): no request without permission is answered with a page. The import of net/http/pprof puts five patterns at the mux first, so its pages are shown to everybody, also when they were never switched on.
* C81 `filter_invalid_violated`: Full claim (false): rules that are not valid are refused and change nothing. They are stored and applied; the answer reports a failure and success.
* C81 `filter_later_violated`: Full claim (false): every cluster applies the rules shown. A cluster created after the request has no filter.
* C82 `trace_overlap_violated`: Full claim (false): when no request to trace is waiting any more, the policy is the one from before. Two that overlap leave the policy of the first in force for ever.
* C82 `trace_lost_violated`: Full claim (false): every context made is taken or still held. One that is recorded just when the contexts are taken gets lost.
* C83 `idc_zero_violated`: a group whose figure is zero is not taken if another measured group is visited after it.
* C83 `idc_second_registry_violated`: the second registry is subscribed to with the group picked for the first, though it has no nodes for it and would pick another group, for which it has a node.
* C84 `ping_hang_violated`: `Ping` can wait for ever: the time is up while five packets are in the channel and a sixth has been read. No step of either goroutine is possible after that.
* C84 `ping_panic_violated`: if reading fails when the time is up, both goroutines close the channel, and the second to do so panics.
* C84 `ping_foreign_violated`: a reply counts whoever sent it, if it has the identifier of the pinger: all times may be those of another node.
* C84 `ping_spoilt_violated`: one packet that cannot be parsed, from anyone, ends the measurement.
* C86 `agent_command_again_violated`: C86 (false of the code): "a repeated command is ignored" — not if a handler said that another one is in force.
* C86 `agent_command_lost_violated`: C86 (false of the code): "every cluster gets the command" — a panic in one registry keeps it from the registries after it, and the same command, notified again, is ignored, so they never get it.
* C86 `agent_command_stale_violated`: C86 (false of the code): "the command in force is the registry's latest" — the first command is read before, and delivered after, a change that arrives in between; the older one stays in force until the next change.
* C87 `hot_reload_unreadable_violated`: C87 (false of the code): "a reload of a configuration that cannot be read changes nothing" — in every state an agent can reach, it destroys every cluster that no dynamic subscription refers to, and leaves no service but theirs and no registry.
* C87 `hot_reload_given_violated`: C87 (false of the code): "a hot reload of an agent started with a configuration of the program keeps to that configuration" — it reads the file of the flag or `./motan.yaml`; if there is none, all the clusters are destroyed.
* C88 `async_unbuffered_violated`: C88 (false of the code): "the result arrives on the channel the caller gives" — not on a channel without buffer: one made in its place gets it, and the caller's never does, whatever happens.
* C89 `snapshot_collision_violated`: C89 (false of the code): "the files show every service found" — two services of one registry can share a key, and then only the one saved last is written.
* C90 `env_value_cut_violated`: The value of such a variable is cut at the sign; and an entry with the prefix but without the sign ends the process.
* C90 `meta_expire_number_violated`: A configuration that gives the seconds as a number, as YAML reads `10`, is ignored.
* C90 `meta_spread_violated`: Marks go by the address: when a caller of one service at an address uses a serialization that does not support the question, the callers of another that does are told "service not support" for 30 seconds although the endpoint was never asked. (lb/weightedEpRefresher.go:97-100 then never asks it again.)
* C91 `zero_interval_violated`: A URL with `connectRetryInterval=0` (or a negative number) makes an endpoint whose first attempt to connect fails give up for good: the ticker panics and the panic is recovered. It is the same with `keepaliveInterval`: an endpoint that was disabled never comes back.
* C91 `reverse_proxy_three_parts_violated`: A service whose `proxy` names a host too, as in `motan2:10.0.0.9:8002`, is not refused: its requests go to port 9982 of this machine, which is the port on which an agent itself takes the requests for the services behind it (agent.go:37).
* C91 `reverse_proxy_destroy_violated`: Destroying it, and showing its state in the management interface, dereferences the endpoint it does not have.
* C91 `mesh_timeout_violated`: A client of an agent that asks for one gets one of a whole second.
* C92 `destroy_command_violated`: Not so if operations cross: a cluster that is destroyed while an agent command is passed on to it. Whatever else runs, both can come to wait for each other for good: `Destroy` has `notifyLock` and wants `mux`, the command has `mux` and wants `notifyLock`.
* C92 `group_change_violated`: A command that gives up another group while the servers of that group change: the watcher of the command has `mux` and the lock of the registry and waits for the watcher of the group, which wants `mux`. From then on nobody can subscribe to anything in this registry.
* C92 `reload_command_violated`: A reload that destroys a cluster while an agent command is passed on to it: from then on no reload, and no subscription at run time, is ever done.
* C92 `listener_watch_violated`: A listener of a switcher that watches the same switcher waits for itself for good.
* C93 `nginx_unfinished_violated`: a last directive without a semicolon is dropped without an error.
* C93 `nginx_unclosed_quote_violated`: after a quote that is not closed the rest of the file is dropped without an error.
* C93 `nginx_single_quotes_violated`: single quotes do not quote.
* C93 `nginx_leading_variable_violated`: a word may not begin with a variable in braces, which nginx allows: the brace is taken for a block.
* C93 `nginx_https_violated`: a server behind `https` becomes a server whose name begins with a slash.
* C93 `nginx_nested_violated`: a location inside another is left out, whatever it is.
* C93 `nginx_condition_violated`: a condition on anything but the address of the request is left out, with the rewriting it guards: the location is translated as if the `if` were not there.
* C93 `nginx_space_violated`: the expression of a `rewrite` with a space in it, quoted as it has to be, gives a rule agents ignore.
* C93 `nginx_modifier_violated`: a location with the modifier that keeps nginx from trying expressions makes the tool panic, with or without a space.
* C94 `switcher_value_violated`: A switcher is set while it is asked for: core/switcher.go:121, 139.
* C94 `switcher_listeners_violated`: A switcher is set while somebody begins to watch it: core/switcher.go:129, 141.
* C94 `trace_spans_violated`: The manage handler looks at a trace while the call goes on: a slice is read while it is appended to (core/debug.go:95, manageHandler.go:551-563).
* C94 `trace_holder_violated`: The manage handler exchanges the traces while calls add theirs: core/debug.go:86, 111.
* C94 `log_filters_violated`: Whether there are filters is asked without the lock: log/filter.go:58, 95.
* C94 `dynamic_weight_violated`: A helper that asks a node for its weight is given up but goes on, and sets the weight while the weights are read: lb/weightedEpRefresher.go:99-114, 220-225.
* C94 `support_dynamic_violated`: … and marks the node while the next round looks at the mark.
* C94 `lb_endpoints_violated`: The nodes of a round robin are exchanged while a call selects one: lb/roundrobinLb.go:17, 21.
* C94 `lb_refers_violated`: The groups with weights are exchanged while a call selects one: lb/lb.go:157, 175.
* C94 `lb_weight_violated`: A traffic control command sets the weights while the nodes are refreshed: lb/lb.go:82, 183.
* C94 `holder_initialized_violated`: The first two calls of a service: one asks without the lock whether the cluster is there, the other one has just made it (cluster/httpCluster.go:27, 36).
* C94 `command_own_urls_violated`: A notification and a discovery set the nodes of the own group at the same time: cluster/command.go:237, 595.
* C94 `command_tc_violated`: A notification asks for the traffic control command while a command is processed: cluster/command.go:274-282, 501.
* C94 `command_info_violated`: The manage handler reads the commands while they are processed: cluster/command.go:57-70, 412.
* C94 `command_available_violated`: A call asks whether the service is degraded while the command is processed: cluster/command.go:513-522, cluster/motanCluster.go:73.
* C94 `old_switchers_violated`: Two clusters process switcher commands at the same time, each under its own lock, and the table of all is written: cluster/command.go:31, 524-553.
* C94 `cluster_refers_violated`: The nodes of a cluster are asked for while a notification exchanges them: cluster/motanCluster.go:118, 131.
* C94 `cluster_closed_violated`: A cluster is destroyed twice at the same time: cluster/motanCluster.go:282, 296.
* C94 `report_writers_violated`: A writer of statistics is added while the reporter asks whether there are any: metrics/metrics.go:863, 888.
* C94 `snapshot_table_violated`: The table of nodes is made while the writing goroutine asks for its size: registry/registry.go:77-81, 176-178.
* C94 `snapshot_conf_violated`: The place of the files is changed while they are written: registry/registry.go:97, 107.
* C94 `zk_available_violated`: A service is registered while the session is lost: registry/zkRegistry.go:82-95, 139.
* C94 `zk_registered_violated`: Services are made available, without the lock, while another one is registered: a map is ranged over and written (registry/zkRegistry.go:138-149, 437-449).
* C94 `zk_subscribed_violated`: An event is handled while another service is subscribed: a map is read and written (registry/zkRegistry.go:187, 230).
* C94 `zk_subscribed_commands_violated`: The same with commands: registry/zkRegistry.go:299, 350.
* C94 `zk_watch_marks_violated`: Two services are given up at the same time, each by its watching goroutine: registry/zkRegistry.go:246, 366.
* C94 `zk_url_params_violated`: The session is recovered while a call reads the parameters of its service: a map is read and written, which ends the process (registry/zkRegistry.go:214).
* C94 `exporter_available_violated`: A service is made available while somebody asks for it: server/server.go:142, 152.
* C94 `exporter_providers_violated`: A service is exported while calls are served: the map of providers is read and written, which ends the process (server/server.go:194, 221).
* C94 `connection_shutdown_violated`: A connection is closed while a call asks whether it is: endpoint/motanCommonEndpoint.go:658, 787.
* C94 `pool_closed_violated`: The pool is closed while a call gets a connection from it: endpoint/motanCommonEndpoint.go:805, 851.
* C94 `endpoint_channels_violated`: The pool is made in the background while a call looks for it: endpoint/motanCommonEndpoint.go:154, 235.
* C94 `heartbeat_version_violated`: Two calls learn the version of heartbeats at the same time: endpoint/motanCommonEndpoint.go:188-194.
* C94 `record_keys_violated`: Two requests for the records share the lock, and write into the same buffer: core/motan.go:1298-1321.
* C94 `attachment_race_violated`: An attachment is read, without care, while another goroutine sets the first one: core/motan.go:513, 560 (659, 694).
* C94 `status_race_violated`: The status of the agent is set and read without care by its status page: manageHandler.go:61, 76.
* C95 `registry_parameters_ignored_violated`: The parameters of a registry's URL are not part of its identity: of two registries configured at one address with different parameters there is only one, made with those of the URL asked for first.
* C95 `serialization_number_shadowed_violated`: Names and numbers of serializations share one table: one registered under the name `6` takes the place of number 6.
* C95 `blank_names_violated`: Blanks around the name of a filter do not matter, but those around the name of a strategy or load balance do: nothing is found.
* C96 `status_exported_twice_violated`: A service that is exported under two protocols is listed twice, and its calls are counted twice in the total.
* C96 `status_client_calls_violated`: Calls that the process makes as a client of a service of the same group and name are shown as calls it serves.
* C96 `status_first_period_violated`: Until the first period is over, a service that was called is not listed.
* C97 `hourly_clock_set_violated`: The clock is set back by one millisecond (as time servers do) while the goroutine sleeps: it wakes up before the full hour by the clock and then sleeps as long as before, so that an hour later the log was not rotated yet.
* C97 `hourly_exact_violated`: So it does if it wakes up at the full hour exactly.
* C98 `start_shared_key_violated`: for references that share a key. A cluster by cedrus and one by motan2, for one service and group, both have requests sent to them, but only the one that was built last is told commands and filters and is on the page.
* C98 `cluster_key_underscore_violated`: for names with underscores: different references have one key.
* C98 `start_reload_violated`: if a reload comes into the last step of a subscription: in the end commands, filters and the page have a cluster that was destroyed.
* C98 `start_leak_violated`: once the time is over: the goroutine that waits for the others never ends, whatever happens afterwards.
* C98 `start_wrong_group_violated`: for a service in two groups if the time is over before both clusters are built: a request for the one group is sent to the other group's servers. It stays so if the second cluster fails.
* C98 `start_order_violated`: for a request that fits two references: which one it is sent to is a matter of which cluster is built first, so that it can change from start to start.
* C99 `dropped_violated`: C99 fails with 1025 connections, whatever the size of the pool: while the requests of one of them keep all workers busy the others wait, and its next request is dropped without an answer. (`Submit` returns an error that the loop ignores.)

## Trusted base

* The kernel of Lean 4.33.0, and of the axioms at most `propext`, `Classical.choice` and `Quot.sound` (see below).
  No axiom is added; there is no `sorry`, `native_decide` or `bv_decide`. `decide +kernel` is evaluated by the kernel
  and is used for closed instances: examples, counterexamples and finite facts about bytes.
* The reading of Go in the model: that the definitions in `Model/` do what the cited lines do, including
  what Go's language definition says of maps, slices, integers, goroutines, channels and panics. This is not
  machine-checked. Each definition says in its comment where it simplifies.
* The English statements in `properties.jsonl` and the specifications in `Spec/` and in the namespace `Spec`.

Taken as parameters, with their laws as hypotheses of the theorems that need them: gzip (what is compressed is
decompressed to the same bytes), the JSON encoding of exceptions (what is written is read back), JSON decoding of
commands and dynamic configuration, regular expressions, CIDR parsing, DNS and the local address, the sort
functions (any sorted permutation), the canonicalisation and reading of HTTP headers by fasthttp, protobuf messages
(marshal and merge), hash functions, random numbers, clocks.

Not modelled: the network and the file system beyond byte streams and the files named in a property, garbage
collection and memory, the Go scheduler beyond arbitrary interleaving of the stated steps, third-party modules,
logging, tracing, and the functions listed as not modelled below.

### Axioms

`#print axioms` on each of the 1079 theorems named in `MANIFEST.json` gives:

* 477 theorems: [propext, Quot.sound]
* 472 theorems: [propext, Classical.choice, Quot.sound]
* 105 theorems: [propext]
* 25 theorems: no axioms

Theorems with no axioms: `agent_command_again_violated`, `agent_command_stale_violated`, `agent_key_collision_counterexample`, `agent_stale_removal_counterexample`, `asked_total`, `backup_budget_share_counterexample`, `client_call_error`, `cluster_key_underscore_violated`, `delay_other_service_violated`, `escaped_alike_violated`, `exception_response_empty_counterexample`, `framework_requests_served`, `graphite_server_names_violated`, `hourly_clock_set_violated`, `hourly_exact_violated`, `machine_all_violated`, `mesh_no_port_violated`, `refers_filter_nonempty`, `refresh_period_panics_violated`, `register_nil_violated`, `startup_names`, `switcher_concurrent_twice_counterexample`, `unsent_message_kept`, `variable_in_value_counterexample`, `wrr_array_empty_counterexample`.
Theorems with `propext` only: `agent_application_violated`, `agent_command_history`, `agent_command_repeated`, `agent_command_told`, `agent_status_violated`, `agent_target_spec`, `async_go_never_waits`, `available_after_destroy_counterexample`, `available_only_after_success`, `can_serve_iff`, `client_http_body_violated`, `clone_drops_fields_violated`, `cluster_key_iff`, `command_found`, `command_place`, `conf_bool`, `conf_bool_violated`, `connecting_after_destroy_counterexample`, `connections_stay`, `default_size_violated`, `disabling_makes_unavailable`, `door_header_wins_violated`, `door_no_value_violated`, `exception_object_form`, `exception_text_too_long_counterexample`, `failed_send_leaks_counterexample`, `failfast_heals`, `filter_empty_format`, `filter_format`, `filter_levels`, `filter_print`, `form_value`, `graphite_calls`, `graphite_readable`, `group_window_wrap_counterexample`, `grpc_answers`, `grpc_kind_violated`, `grpc_no_argument_violated`, `grpc_one_target`, `grpc_only_one`, `grpc_roundtrip`, `hash_select_sticky`, `hash_single_unavailable_counterexample`, `hash_single_violated`, `hedged_reply_error_violated`, `hedged_reply_late_violated`, `hedged_reply_other_violated`, `hedged_reply_stable`, `http_body`, `http_header_clash_violated`, `http_method`, `http_refused`, `idc_second_registry_violated`, `idc_zero_violated`, `kinds_clash_violated`, `late_answer_crashes_violated`, `late_event_lost_violated`, `local_gap_violated`, `local_reply_violated`, `local_url_violated`, `machine_net_names`, `machine_panic_violated`, `mesh_clash_violated`, `mesh_destroy_violated`, `mesh_repeated_violated`, `mesh_self_violated`, `meta_expire_number_violated`, `names_run_together_violated`, `nginx_modifier_violated`, `observe_recovered`, `oversize_refused`, `params_logdir_violated`, `params_mport_violated`, `pattern_choice_violated`, `pattern_hides_violated`, `ping_foreign_violated`, `ping_hang_violated`, `ping_panic_violated`, `ping_spoilt_violated`, `ping_stuck`, `pool_get_panics_violated`, `pool_gets_open`, `readByte_past_wpos_counterexample`, `request_timeout_v2_zero_counterexample`, `request_timeout_zero_counterexample`, `snapshot_keys`, `startup_file`, `startup_single`, `status_client_calls_violated`, `status_exported_twice_violated`, `status_first_period_violated`, `submitted_exact`, `success_makes_available`, `success_only_by_attempt`, `switcher_concurrent_final_value_announced`, `switcher_order_counterexample`, `switcher_types_violated`, `synced_no_race`, `takes_no_more`, `trace_fixed`, `trace_lost_violated`, `trace_overlap_violated`, `trace_response_spans`, `unsolicited_response_counterexample`, `unsupported_for_ever_violated`.
Theorems with `propext` and `Quot.sound` only: `access_discarded`, `access_line_violated`, `access_never_waits`, `access_structured_fields`, `access_structured_readable`, `access_switch`, `access_twice_violated`, `agent_answer`, `agent_command_handled`, `agent_command_lost_violated`, `agent_command_subscribed`, `agent_command_told_iff`, `agent_fills_gaps`, `agent_fills_message`, `agent_http`, `agent_mport_violated`, `agent_node_stays_counterexample`, `agent_placeholders`, `agent_routing`, `agent_rpc_served`, `agent_status_follows`, `answered_ok_violated`, `answered_weight`, `assign_readInto`, `async_channel`, `async_drains`, `async_flag_survives_violated`, `async_kept`, `attachments_linearizable`, `attachments_no_panic`, `attachments_progress`, `backup_budget`, `backup_direct_answer`, `backup_plan`, `backup_progress`, `backup_request_metrics`, `backup_waits_for_deadline_counterexample`, `blank_names_violated`, `blind_counterexample`, `block_writer_spec`, `both_nodes_counterexample`, `breaker_array_violated`, `breaker_business_violated`, `breaker_down_violated`, `breaker_page_violated`, `breaker_select`, `breaker_untouched`, `call_counted_once`, `call_failure_codes`, `call_keeps_id`, `call_v1_answer`, `call_value_ready`, `cgi_address`, `cgi_environment`, `cgi_failed`, `cgi_headers`, `cgi_no_argument`, `cgi_panics_exactly`, `cgi_status_panics_violated`, `client_http_failure`, `client_request`, `clone_arguments_overwritten_violated`, `clone_attachment_not_sent_violated`, `clone_handler_overwritten_violated`, `cluster_endpoints`, `cluster_endpoints_unfiltered`, `cluster_never_emptied`, `cluster_single_registry`, `clusters_interfere_counterexample`, `command_node_created`, `command_of_application`, `command_of_group`, `commands_in_force`, `completed_registration_survives`, `completed_subscription_survives`, `completed_unregistration_survives`, `concurrent_readers_violated`, `conf_accessors`, `connecting_goes_on`, `connection_count`, `cowmap_linearizable`, `crash_recovers`, `crash_when_idle_loses_nothing`, `crash_while_saving_violated`, `decode_contained`, `decode_sound`, `default_routing`, `default_tables`, `degraded_after_unsubscribe_counterexample`, `degraded_iff`, `delay_alike_plain`, `destroy_command_violated`, `destroy_hangs_violated`, `destroy_leaks_filtered_counterexample`, `destroy_once`, `direct_ambiguous_violated`, `direct_at_violated`, `direct_env_entry`, `direct_env_none`, `direct_env_unset`, `direct_identity_stale_counterexample`, `direct_ipv6_violated`, `direct_nothing`, `direct_port_violated`, `direct_single`, `direct_socket_violated`, `discover_panics_counterexample`, `discovery_race_violated`, `door_calls`, `duplicate_group_leaks_counterexample`, `duplicate_server_leaks_counterexample`, `empty_notification_ignored`, `empty_port_violated`, `empty_prefix_counterexample`, `encoding_survives_violated`, `endpoint_dials`, `endpoint_filters_nested`, `endpoint_kept`, `endpoint_settings`, `entry_converted_iff`, `env_meta`, `env_value_cut_violated`, `export_busy_violated`, `export_parts_violated`, `export_path_violated`, `export_proxyHost_violated`, `export_zero_violated`, `ext_lookup`, `extinfo_equals_counterexample`, `extinfo_order_independent`, `extinfo_path_slash_counterexample`, `failfast_probes_spaced`, `failfast_shared`, `failfast_success_lost_counterexample`, `failfast_unavailable_only_after_ten`, `failover_group`, `failover_retries_setting`, `filled_unique`, `filter_invalid_violated`, `filter_last`, `filter_later_violated`, `filter_log_never_waits`, `filter_offers_all`, `filter_refused`, `findGcd_spec`, `fitGroup_facts`, `frame_reader_contained`, `framework_requests_separate`, `goes_on`, `graphite_host`, `graphite_ipv6_violated`, `graphite_servers`, `graphite_single_name_violated`, `graphite_write`, `graphite_write_fails`, `group_parameter_ignored_violated`, `group_refresh_panics`, `group_window`, `groups_cache`, `grpc_refused`, `grpc_relayed`, `grpc_retried`, `handler_answers`, `handler_paths_shared_violated`, `handler_serves`, `hash_array_empty_counterexample`, `hash_select_good`, `hash_tries_again`, `hot_reload_given_violated`, `hot_reload_reads`, `hot_reload_unreadable_violated`, `hourly_each`, `hourly_never_early`, `hourly_once`, `hourly_prompt`, `http_clients_configured`, `http_cut_reported`, `http_failure_as_biz_violated`, `http_form`, `http_form_name_injected_violated`, `http_forwarded_for`, `http_headers`, `http_headers_only`, `http_no_argument_panics_violated`, `http_plain_headers`, `http_proxied`, `http_rewrite_misses_arguments_violated`, `http_settled`, `http_transparent`, `http_url`, `httpx_headers`, `httpx_settled`, `httpx_status_lost_violated`, `httpx_url`, `idc_fill`, `idc_first_pick`, `idc_plain`, `idc_registries`, `idc_unknown_name`, `identity_coherent`, `int_param_coherent`, `kept_endpoint_ignores_parameters_counterexample`, `late_server_violated`, `late_weight_never_used_violated`, `limit_off`, `local_bound`, `local_call`, `local_client_error`, `local_late_violated`, `local_only`, `local_refused`, `location_none`, `location_over_service_counterexample`, `location_picked`, `log_access`, `log_kept`, `log_level`, `log_level_refused`, `log_levels`, `log_metrics`, `lone_reader`, `loop_ends`, `machine_net`, `machine_net_total`, `machine_new_violated`, `machine_restart_violated`, `machine_shown`, `malformed_rid_counterexample`, `manage_denied`, `manage_imported`, `manage_override`, `manage_permission_violated`, `manage_plain`, `manage_port`, `manage_unknown`, `mean_trimmed`, `merge_int_stale_counterexample`, `merge_method_param_unseen_counterexample`, `merge_order_independent`, `mesh_address`, `mesh_answer`, `mesh_at_most_once`, `mesh_client`, `mesh_discover`, `mesh_http_host`, `mesh_one_cluster`, `mesh_refresh`, `mesh_restart_violated`, `mesh_rpc_served`, `mesh_self_rejected`, `mesh_shared_violated`, `mesh_timeout_violated`, `mesh_unheard_violated`, `mesh_unknown`, `metaSize_formula`, `meta_all`, `meta_answered`, `meta_asked_only`, `meta_asks_again`, `meta_deleted`, `meta_fresh`, `meta_kept`, `meta_last`, `meta_marked`, `meta_merged`, `meta_not_asked`, `meta_server_end`, `meta_spread_violated`, `meta_supports`, `metadata_integrity`, `metadata_order_irrelevant`, `method_param_precedence`, `negative_version_counterexample`, `new_endpoint_params`, `nginx_condition_violated`, `nginx_https_violated`, `nginx_if_rewrite`, `nginx_leading_variable_violated`, `nginx_nested_violated`, `nginx_no_panic`, `nginx_parsed`, `nginx_read_again`, `nginx_rewrite`, `nginx_served`, `nginx_single_quotes_violated`, `nginx_translated`, `nginx_unbalanced`, `nginx_unclosed_quote_violated`, `nginx_unfinished_violated`, `no_group_violated`, `node_deleted_violated`, `nothing_saved`, `notification_weight`, `notify_after_destroy_counterexample`, `page_clusters`, `page_exporters`, `page_fails`, `page_misconfigured_violated`, `page_others`, `page_registries_violated`, `page_servers`, `page_start_violated`, `pages_last`, `pages_start`, `params_log`, `params_precedence`, `params_starts`, `parents_refused_violated`, `pb_array_aliased_violated`, `pb_array_cut_unnoticed_violated`, `pb_array_parameter_panics_violated`, `pb_array_refused_violated`, `pb_contained`, `pb_serializes`, `placeholder_recovery_violated`, `placeholders_replaced`, `pool_closed_clean`, `pool_configuration`, `pool_failed_clean`, `pool_progress`, `pool_size`, `positive_variants`, `process_connection_shown`, `process_connections`, `process_io`, `provider_filters_nested`, `provider_int_never_runs_violated`, `provider_no_name_panics_violated`, `provider_path`, `query_violated`, `random_select_good`, `random_tries_again`, `read_failure_violated`, `read_some`, `recorded_sizes`, `recorder_size_zero`, `recovered_nodes_exported`, `recovery_lost_counterexample`, `refers_filter_exists`, `refers_filter_withdrawn`, `refresh_period_ok`, `registered_of_history`, `registries_distinct`, `registry_apart`, `registry_made`, `registry_missing`, `registry_parameters_ignored_violated`, `registry_shared`, `reload_agree`, `reload_command_violated`, `reload_destroys`, `reload_interrupted`, `reload_items`, `reload_keeps`, `reload_known`, `reload_leak_violated`, `reload_lost_subscription_violated`, `reload_no_leak`, `reload_placeholder_violated`, `reload_refused_subscription_violated`, `reload_serves`, `reload_settings`, `reload_zookeeper_violated`, `removal_exact`, `repeated_command_ignored`, `request_convertible_iff`, `request_inverse`, `request_refused`, `request_relay_protocol`, `request_timeout_positive`, `request_timeout_spec`, `request_timeout_v2_spec`, `resubscribe_violated`, `retry_client`, `retry_loses_body_violated`, `retry_mixes_requests_violated`, `retry_rewrites_frame_violated`, `reverse_proxy_call`, `reverse_proxy_destroy_violated`, `reverse_proxy_set_up`, `reverse_proxy_three_parts_violated`, `ring_agree`, `ring_current`, `ring_history_violated`, `ring_home`, `ring_no_panic`, `ring_not_stale`, `ring_panic_violated`, `ring_partitions`, `ring_select_good`, `ring_settled`, `roundRobin_select_good`, `routes_remove_all_counterexample`, `rr_select_good`, `runtime_given`, `runtime_other`, `runtime_page`, `runtime_space_violated`, `same_hour_violated`, `saved_registered`, `select_array_spec`, `serialization_lookup`, `serialization_number_shadowed_violated`, `server_status_follows`, `service_lost_violated`, `service_of_path`, `session_gap_violated`, `shows_answer`, `simple_decode_panic_counterexample`, `simple_empty_target_counterexample`, `simple_int_keys_counterexample`, `simple_multi_truncated_counterexample`, `simple_unsupported`, `snapshot_service`, `spins_violated`, `stale_identity_violated`, `start_order_violated`, `start_page`, `start_reload_violated`, `start_serves`, `start_settings`, `start_shared_key_violated`, `start_told`, `start_wrong_group_violated`, `startup_directory`, `startup_given`, `startup_refused`, `stat_failure_violated`, `statements_in_turn`, `static_weight`, `status_after_restart`, `status_running`, `status_services`, `status_survives_partial`, `status_survives_violated`, `status_total`, `stays_of`, `subscribed_only`, `subscribers_current`, `subscription_lost_violated`, `subscription_served`, `subscription_stays`, `suffix_unregister_violated`, `summary_says`, `switcher_all`, `switcher_command_withdrawn`, `switcher_commands_undone`, `switcher_kept`, `switcher_last`, `switcher_last_value`, `switcher_notifications`, `switcher_panic_iff`, `switcher_register_ignored`, `switcher_unknown`, `tables_of_history`, `taken_up`, `told_only_written`, `trace_bounded`, `trace_complete`, `trace_in_force`, `trace_only_wanted`, `trace_recorded`, `trace_request_spans`, `trace_restores`, `trace_times`, `traffic_command_chosen`, `unknown_answer`, `unsubscribe_hangs_violated`, `unsubscribed_silent`, `variables_filled`, `wait_wraps`, `weighted_select`, `window_select_misses_counterexample`, `window_size`, `write_fits`, `write_rotates`, `wrr_ring_mode`.
All others: `propext`, `Classical.choice` and `Quot.sound`.

### Which functions are modelled

A function is listed as modelled if a definition of the model cites lines of it; the comment of that definition says what it leaves out. Functions of one or two lines are left out of the lists of functions that are not modelled.

| file | modelled | not modelled |
|----|----|----|
| agent.go | Agent.initProxyServiceURL, Agent.GetRuntimeInfo, Agent.SetAllServicesAvailable, Agent.SetAllServicesUnavailable, Agent.StartMotanAgentFromConfig, Agent.startRegistryFailback, Agent.GetRegistryStatus, Agent.initStatus, Agent.saveStatus, Agent.recoverStatus, Agent.initParam, Agent.initHTTPClusters, httpClusterGetter.GetHTTPCluster, Agent.reloadClusters, Agent.initClusters, Agent.initCluster, Agent.initAgentURL, Agent.startAgent, Agent.registerAgent, agentMessageHandler.GetRuntimeInfo, agentMessageHandler.clusterCall, agentMessageHandler.httpCall, fillDefaultReqInfo, agentMessageHandler.Call, agentMessageHandler.findCluster, Agent.availableAllServices, Agent.unavailableAllServices, Agent.doExportService, serverAgentMessageHandler.GetName, serverAgentMessageHandler.GetRuntimeInfo, serverAgentMessageHandler.Initialize, serverAgentMessageHandler.initFrameworkServiceProvider, getServiceKey, serverAgentMessageHandler.Call, serverAgentMessageHandler.AddProvider, serverAgentMessageHandler.RmProvider, serverAgentMessageHandler.GetProvider, getClusterKey, initLog, registerSwitchers, AgentListener.NotifyCommand, Agent.startMServer, Agent.mhandle, urlExist, Agent.SubscribeService, Agent.ExportService, Agent.UnexportService | NewAgent, Agent.callAfterStart, Agent.registerStatusSampler, GetRssMemory, GetCpuPercent, Agent.startHTTPAgent, Agent.SetSanpshotConf, Agent.startServerAgent, Agent.RegisterManageHandler, Agent.RegisterEnvHandlers, Agent.setBackendServerHeartbeat, Agent.getConfigData |
| client.go | Client.Call, Client.BaseCall, Client.BaseGo, Client.BuildRequest, NewClientContextFromConfig, GetClientContextWithFlagParse, MCContext.Start, MCContext.GetClient | NewClient, Client.Go, MCContext.Initialize, MCContext.GetRefer |
| cluster/RefersFilter.go | RefersFilterConfigList.Verify, RefersFilterConfigList.ParseRefersFilters, filterRule.IsMatch, NewDefaultRefersFilter, DefaultRefersFilter.Filter |  |
| cluster/command.go | CommandRegistryWrapper.GetRuntimeInfo, serviceListener.Notify, serviceListener.subscribe, ClientCommand.MatchCmdPattern, ParseCommand, GetCommandRegistryWrapper, CommandRegistryWrapper.GetRegistryStatus, CommandRegistryWrapper.Unavailable, CommandRegistryWrapper.GetRegisteredServices, CommandRegistryWrapper.Subscribe, CommandRegistryWrapper.Unsubscribe, CommandRegistryWrapper.Discover, CommandRegistryWrapper.clear, CommandRegistryWrapper.getCurrentTcCommand, CommandRegistryWrapper.getResultWithCommand, processRoute, isMatch, buildRuleURL, CommandRegistryWrapper.processCommand, CommandRegistryWrapper.processTcCommand, newSubscribe, CommandRegistryWrapper.processDegradeCommand, CommandRegistryWrapper.processSwitcherCommand, mergeCommand, CommandRegistryWrapper.NotifyCommand, CommandRegistryWrapper.Notify | serviceListener.GetIdentity, serviceListener.unSubscribe, toRecordInfo |
| cluster/httpCluster.go | clusterHolder.getCluster, clusterHolder.destroy, NewHTTPCluster, HTTPCluster.GetRuntimeInfo, HTTPCluster.CanServe, HTTPCluster.getMotanCluster, HTTPCluster.removeMotanCluster, HTTPCluster.Call, HTTPCluster.Destroy | newClusterHolder |
| cluster/motanCluster.go | MotanCluster.IsAvailable, NewCluster, MotanCluster.Call, MotanCluster.initCluster, MotanCluster.SetLoadBalance, MotanCluster.GetRefers, MotanCluster.refresh, MotanCluster.filterRefers, MotanCluster.Notify, processWeight, MotanCluster.addFilter, MotanCluster.GetIdentity, MotanCluster.Destroy, MotanCluster.parseRegistry, MotanCluster.parseFromEnvRegistry, MotanCluster.initFilters, MotanCluster.NotifyAgentCommand, MotanCluster.GetRuntimeInfo, MotanCluster.SetRefersFilter, getSubscribeGroup, getBestGroup | MotanCluster.ShuffleEndpoints |
| config/config.go | ParseBool, Config.Bool, Config.Int, Config.DefaultInt, Config.GetStringWithDefault, Config.GetSection, Config.getData, Config.ReplacePlaceHolder, Config.replace, Config.getPlaceholderValue, mergeMap | NewConfigFromReader, NewConfigFromFile, Config.Int64, Config.GetStruct, Config.Merge, NewConfig |
| core/atomic.go | none | all |
| core/bytes.go | NewBytesBuffer, NewBytesBufferWithOrder, CreateBytesBuffer, CreateBytesBufferWithOrder, BytesBuffer.SetWPos, BytesBuffer.SetRPos, BytesBuffer.WriteByte, BytesBuffer.WriteString, BytesBuffer.Write, BytesBuffer.WriteUint16, BytesBuffer.WriteUint32, BytesBuffer.WriteUint64, BytesBuffer.WriteZigzag32, BytesBuffer.WriteZigzag64, BytesBuffer.WriteVarint, BytesBuffer.grow, BytesBuffer.Bytes, BytesBuffer.Read, BytesBuffer.ReadFull, BytesBuffer.ReadUint16, BytesBuffer.ReadInt, BytesBuffer.ReadUint32, BytesBuffer.ReadUint64, BytesBuffer.ReadZigzag64, BytesBuffer.ReadZigzag32, BytesBuffer.ReadVarint, BytesBuffer.Next, BytesBuffer.ReadByte, BytesBuffer.Reset, BytesBuffer.Remain, BytesBuffer.Len | AcquireBytesBuffer, ReleaseBytesBuffer |
| core/debug.go | NoTrace, RandomTrace, AlwaysTrace, traceHolder.newTrace, NewTraceContext, TraceContext.PutReqSpan, TraceContext.PutResSpan, GetTraceContexts |  |
| core/globalContext.go | Context.confToURLs, confToURL, importCfgIgnoreError, Context.Initialize, Context.parseSingleConfiguration, Context.parsePoolConfiguration, Context.getDynamicParameters, Context.getDynamicParametersByRegexp, Context.parseHostURL, Context.basicConfToURLs, Context.GetFilterSet, Context.MergeFilterSet, Context.GetDefaultFilterSet, Context.GetGlobalFilterSet, Context.GetEnvGlobalFilterSet, Context.parseMultipleServiceGroup, Context.parseRegGroupSuffix, Context.parseSubGroupSuffix, Context.parseRefers, Context.parseServices | AddRelevantFilter, NewContext, NewContextFromConfig, Context.FilterSetToStr |
| core/map.go | NewStringMap, StringMap.Store, StringMap.Reset, StringMap.Delete, StringMap.Load, StringMap.LoadOrEmpty, StringMap.Range, StringMap.RawMap, StringMap.Copy, StringMap.Len, NewCopyOnWriteMap, CopyOnWriteMap.data, CopyOnWriteMap.Load, CopyOnWriteMap.LoadOrNil, CopyOnWriteMap.Range, CopyOnWriteMap.Store, CopyOnWriteMap.UnsafeStore, CopyOnWriteMap.Delete, CopyOnWriteMap.Len, CopyOnWriteMap.Swap, CopyOnWriteMap.SafeDoFunc |  |
| core/motan.go | init, RPCContext.Reset, RPCContext.AddFinishHandler, RPCContext.OnFinish, DeserializableValue.Deserialize, DeserializableValue.DeserializeMulti, AcquireMotanRequest, ReleaseMotanRequest, MotanRequest.Reset, MotanRequest.GetAttachment, MotanRequest.SetAttachment, MotanRequest.GetServiceName, MotanRequest.GetMethod, MotanRequest.GetMethodDesc, MotanRequest.GetArguments, MotanRequest.GetRequestID, MotanRequest.SetArguments, MotanRequest.GetAttachments, MotanRequest.GetRPCContext, MotanRequest.Clone, MotanRequest.ProcessDeserializable, AcquireMotanResponse, ReleaseMotanResponse, MotanResponse.Reset, MotanResponse.GetAttachment, MotanResponse.SetAttachment, MotanResponse.GetAttachments, MotanResponse.ProcessDeserializable, BuildExceptionResponse, DefaultExtensionFactory.GetRuntimeInfo, DefaultExtensionFactory.GetHa, DefaultExtensionFactory.GetLB, DefaultExtensionFactory.GetFilter, DefaultExtensionFactory.GetRegistry, DefaultExtensionFactory.GetEndPoint, DefaultExtensionFactory.GetProvider, DefaultExtensionFactory.GetServer, DefaultExtensionFactory.GetMessageHandler, DefaultExtensionFactory.GetSerialization, DefaultExtensionFactory.RegistExtFilter, DefaultExtensionFactory.RegistExtHa, DefaultExtensionFactory.RegistExtLb, DefaultExtensionFactory.RegistExtEndpoint, DefaultExtensionFactory.RegistExtProvider, DefaultExtensionFactory.RegistExtRegistry, DefaultExtensionFactory.RegistExtServer, DefaultExtensionFactory.RegistryExtMessageHandler, DefaultExtensionFactory.RegistryExtSerialization, DefaultExtensionFactory.Initialize, GetLastEndPointFilter, GetLastClusterFilter, lastEndPointFilter.GetRuntimeInfo, lastEndPointFilter.GetName, lastEndPointFilter.NewFilter, lastEndPointFilter.Filter, lastEndPointFilter.HasNext, lastEndPointFilter.SetNext, lastEndPointFilter.GetNext, lastEndPointFilter.GetIndex, lastEndPointFilter.GetType, lastClusterFilter.GetRuntimeInfo, lastClusterFilter.GetName, lastClusterFilter.NewFilter, lastClusterFilter.Filter, lastClusterFilter.HasNext, lastClusterFilter.SetNext, lastClusterFilter.GetNext, lastClusterFilter.GetIndex, lastClusterFilter.GetType, FilterEndPoint.GetRuntimeInfo, FilterEndPoint.Call, FilterEndPoint.GetURL, FilterEndPoint.SetURL, FilterEndPoint.GetName, FilterEndPoint.Destroy, FilterEndPoint.SetProxy, FilterEndPoint.SetSerialization, FilterEndPoint.IsAvailable, newRegistryGroupCacheInfo, registryGroupCacheInfo.getGroups, registryGroupCache.getGroups, GetAllGroups, registryGroupServiceCacheInfo.getServices, registryGroupServiceCacheInfo.refreshServices, registryGroupServiceCache.getServices, ServiceInGroup, RegistLocalProvider, NewCircularRecorder, CircularRecorder.AddRecord, CircularRecorder.GetRecords, CircularRecorder.generateRecordKey | Initialize, CanSetContext, MotanResponse.GetRPCContext, newRegistryGroupServiceCacheInfo, GetLocalProvider, GetRuntimeInfo |
| core/net.go | none | all |
| core/ping.go | Pinger.Addr, Pinger.Ping, Pinger.sendICMP, Pinger.recvICMP, Pinger.processPacket | NewPinger, Pinger.listen |
| core/switcher.go | initSwitcher, SwitcherManager.Register, SwitcherManager.GetAllSwitchers, SwitcherManager.GetSwitcher, SwitcherManager.GetOrRegister, SwitcherManager.IsOpen, SwitcherManager.SetValue, SwitcherManager.clear, Switcher.IsOpen, Switcher.Watch, Switcher.SetValue |  |
| core/test.go | none | all |
| core/url.go | URL.GetIdentity, URL.IsMatch, URL.GetIdentityWithRegistry, URL.ClearCachedInfo, URL.GetPositiveIntValue, URL.GetBoolValue, URL.GetIntValue, URL.GetInt, URL.GetStringParamsWithDefault, URL.GetMethodIntValue, URL.hasMethodParams, URL.GetMethodPositiveIntValue, URL.GetParam, URL.GetTimeDuration, URL.PutParam, URL.ToExtInfo, FromExtInfo, URL.GetPortStr, URL.GetAddressStr, URL.Copy, URL.MergeParams, URL.CanServe, URL.CanServeProtocol, IsSame, GetURLFilters, filterSlice.Len, filterSlice.Swap, filterSlice.Less | GetSerialization |
| core/util.go | ParseExportInfo, InterfaceToString, SliceShuffle, FirstUpper, HandlePanic, TrimSplit, ListenUnixSock, SlicesUnique, GetDirectEnvRegistry, GetNonNegative | GetLocalIPs, GetLocalIP, EndpointShuffle, ByteSliceShuffle, GetReqInfo, GetResInfo, GetEPFilterInfo, writeEPFilter, TrimSplitSet, ClearDirectEnvRegistry |
| default.go | GetDefaultManageHandlers, GetDefaultExtFactory, AddDefaultExt |  |
| dynamicConfig.go | NewDynamicConfigurer, DynamicConfigurer.initialize, DynamicConfigurer.doRecover, DynamicConfigurer.Register, DynamicConfigurer.doRegister, DynamicConfigurer.Unregister, DynamicConfigurer.doUnregister, DynamicConfigurer.Subscribe, DynamicConfigurer.doSubscribe, DynamicConfigurer.saveSnapshot, DynamicConfigurer.getRegistryInfo, DynamicConfigurerHandler.ServeHTTP, DynamicConfigurerHandler.readURLsFromRequest, DynamicConfigurerHandler.parseURLs, DynamicConfigurerHandler.parseURL, DynamicConfigurerHandler.register, DynamicConfigurerHandler.unregister, DynamicConfigurerHandler.subscribe, DynamicConfigurerHandler.list, DynamicConfigurerHandler.info, writeHandlerResponse, registryEquals | DynamicConfigurerHandler.SetAgent, DynamicConfigurerHandler.readURLs |
| endpoint/endpoint.go | RegistDefaultEndpoint, GetRequestGroup, GenerateRequestID | MockEndpoint.GetRuntimeInfo, MockEndpoint.IsAvailable, MockEndpoint.Call |
| endpoint/grpcEndpoint.go | GrpcEndPoint.Call | GrpcEndPoint.GetRuntimeInfo, GrpcEndPoint.Initialize, GrpcEndPoint.Destroy, GrpcEndPoint.IsAvailable, agentCodec.Marshal, agentCodec.Unmarshal |
| endpoint/localEndpoint.go | LocalEndpoint.Initialize, LocalEndpoint.Call | LocalEndpoint.GetRuntimeInfo |
| endpoint/mockDynamicEndpoint.go | none | all |
| endpoint/motanCommonEndpoint.go | MotanCommonEndpoint.GetRuntimeInfo, MotanCommonEndpoint.Initialize, MotanCommonEndpoint.Destroy, MotanCommonEndpoint.GetRequestTimeout, MotanCommonEndpoint.Call, MotanCommonEndpoint.fitGroup, MotanCommonEndpoint.initChannelPoolWithRetry, MotanCommonEndpoint.recordErrAndKeepalive, MotanCommonEndpoint.setKeepaliveType, MotanCommonEndpoint.resetErr, MotanCommonEndpoint.keepalive, MotanCommonEndpoint.heartbeat, MotanCommonEndpoint.defaultErrMotanResponse, MotanCommonEndpoint.IsAvailable, Stream.Reset, Stream.Send, Stream.Recv, Stream.notify, Stream.SetDeadline, Channel.newStream, Channel.newHeartbeatStream, Stream.RemoveFromChannel, Channel.Call, Channel.HeartBeat, Channel.IsClosed, Channel.recv, Channel.recvLoop, Channel.handleMsg, Channel.send, Channel.closeOnErr, Channel.Close, ChannelPool.getChannels, ChannelPool.Get, retChannelPool, ChannelPool.Close, NewChannelPool, buildChannel, acquireStream, releaseStream | MotanCommonEndpoint.profile |
| endpoint/motanEndpoint.go | MotanEndpoint.Initialize, MotanEndpoint.GetRequestTimeout, V2ChannelPool.getChannels, V2ChannelPool.Get, retV2ChannelPool, V2ChannelPool.Close, NewV2ChannelPool, buildV2Channel, SetMotanEPDefaultAsynInit, GetDefaultMotanEPAsynInit | MotanEndpoint.GetRuntimeInfo, MotanEndpoint.Destroy, MotanEndpoint.Call, MotanEndpoint.initChannelPoolWithRetry, MotanEndpoint.recordErrAndKeepalive, MotanEndpoint.keepalive, MotanEndpoint.defaultErrMotanResponse, DefaultConfig, VerifyConfig, V2Stream.Reset, V2Stream.Send, V2Stream.Recv, V2Stream.notify, V2Channel.newStream, V2Stream.RemoveFromChannel, V2Channel.Call, V2Channel.recv, V2Channel.recvLoop, V2Channel.send, V2Channel.handleHeartbeat, V2Channel.handleMessage, V2Channel.closeOnErr, V2Channel.Close, releaseV2Stream |
| filter/accessLog.go | AccessLogFilter.GetIndex, AccessLogFilter.Filter, doAccessLog |  |
| filter/circuitBreaker.go | CircuitBreakerFilter.GetIndex, CircuitBreakerFilter.Filter, newCircuitBreaker, getConfigValue, buildCommandConfig, defaultErrMotanResponse, checkException | CircuitBreakerFilter.NewFilter, getConfigStr |
| filter/clusterAccessLog.go | ClusterAccessLogFilter.GetIndex, ClusterAccessLogFilter.Filter |  |
| filter/clusterCircuitBreaker.go | ClusterCircuitBreakerFilter.GetIndex, ClusterCircuitBreakerFilter.Filter | ClusterCircuitBreakerFilter.NewFilter, ClusterCircuitBreakerFilter.SetNext |
| filter/clusterMetrics.go | ClusterMetricsFilter.GetIndex, ClusterMetricsFilter.Filter | ClusterMetricsFilter.NewFilter, ClusterMetricsFilter.HasNext, ClusterMetricsFilter.SetNext, ClusterMetricsFilter.GetNext |
| filter/failfast.go | FailfastFilter.NewFilter, getEps, FailfastFilter.Filter, FailfastFilter.IsAvailable, FailfastFilter.GetIndex | endpointStatus.setAvailable, endpointStatus.getAvailable |
| filter/filter.go | RegistDefaultFilters, getFilterStartTime, GetFilterRuntimeInfo |  |
| filter/metrics.go | MetricsFilter.Filter, addMetricWithKeys | MetricsFilter.NewFilter, MetricsFilter.HasNext, MetricsFilter.SetNext, MetricsFilter.GetNext, initReqAppSwitcher |
| filter/rateLimit.go | RateLimitFilter.NewFilter, RateLimitFilter.Filter, RateLimitFilter.GetIndex, getKeyValue, getDefaultCapacity |  |
| filter/tracing.go | DefaultTraceRecordingFunc, TracingFilter.Filter, TracingFilter.filterForClient, TracingFilter.filterForProvider, handleIfPanic, TracingFilter.GetIndex | tracingFunc, callNext, AttachmentReader.ForeachKey |
| ha/backupRequestHA.go | BackupRequestHA.Call, BackupRequestHA.doCall, BackupRequestHA.updateCallRecord, BackupRequestHA.tryAcquirePermit, getKey |  |
| ha/failoverHA.go | FailOverHA.GetURL, FailOverHA.SetURL, FailOverHA.Call, getErrorResponseWithCode |  |
| ha/ha.go | RegistDefaultHa |  |
| http/httpProxy.go | HttpMotanResponse.Reset, AcquireHttpMotanResponse, ReleaseHttpMotanResponse, PatternSplit, stringToProxyRewriteType, newRewriteRule, rewriteRule.rewrite, ProxyLocation.DeterminePath, NewLocationMatcherFromContext, NewLocationMatcher, LocationMatcher.Pick, LocationMatcher.URIToServiceName, MotanRequestToFasthttpRequest, FasthttpResponseToMotanResponse | ProxyMatchType.String, stringToProxyMatchType, ProxyRewriteType.String |
| lb/consistentHashKeyLb.go | ConsistentHashLB.OnRefresh, ConsistentHashLB.Select, ConsistentHashLB.SelectArray, ConsistentHashLB.buildConsistent, ConsistentHashLB.buildConsistent0 |  |
| lb/lb.go | RegistDefaultLb, NewWeightLbFunc, WeightedLbWrapper.Destroy, destroyInnerRefers, WeightedLbWrapper.OnRefresh, WeightedLbWrapper.onRefreshSingleGroup, WeightedLbWrapper.Select, WeightedLbWrapper.SelectArray, WeightedLbWrapper.SetWeight, singleGroupRefers.selectNext, singleGroupRefers.selectNextArray, weightedRefers.selectNext, weightedRefers.selectNextArray, newWeightRefers, findGcd, basegcd, SelectArrayFromIndex, SelectOneAtRandom |  |
| lb/randomLb.go | RandomLB.Select, RandomLB.SelectArray |  |
| lb/roundrobinLb.go | RoundrobinLB.OnRefresh, RoundrobinLB.Select, RoundrobinLB.SelectArray, RoundrobinLB.SetWeight, RoundrobinLB.roundrobinSelect |  |
| lb/weightRoundRobinLb.go | NewWeightRondRobinLb, WeightRoundRobinLB.OnRefresh, WeightRoundRobinLB.Select, WeightRoundRobinLB.SelectArray, WeightRoundRobinLB.getSelector, WeightRoundRobinLB.setSelector, WeightRoundRobinLB.NotifyWeightChange, roundRobinSelector.DoSelect, roundRobinSelector.refresh, newWeightedRingSelector, weightedRingSelector.initWeightRing, weightedRingSelector.DoSelect, weightedRingSelector.getHolderIndex, newSlidingWindowWeightedRoundRobinSelector, slidingWindowWeightedRoundRobinSelector.DoSelect | WeightRoundRobinLB.getURLLogInfo, newRoundRobinSelector, newSelectorItem |
| lb/weightedEpRefresher.go | NewWeightEpRefresher, WeightedEpRefresher.notifyWeightChange, WeightedEpRefresher.RefreshWeightedHolders, refreshDynamicWeight, getEpWeight, adjustWeight, WeightedEpRefresher.doRefresh, WeightedEpRefresher.refreshHolderDynamicWeightTask, BuildWeightedEpHolder, WeightedEpHolder.getWeight |  |
| log/bytes.go | innerBytesBuffer.WriteBoolString | releaseBytesBuffer |
| log/filter.go | AddAsyncFilter, startAsyncFilterConsumer, callAsyncFilter, doAsyncFilters, getLogContent | getCaller |
| log/level.go | LogLevel.String, LogLevel.Set |  |
| log/log.go | Infoln, Infof, Warningln, Warningf, Errorln, Errorf, Fatalln, Fatalf, AccessLog, MetricsLog, newDefaultLog, defaultLogger.AccessLog, defaultLogger.doAccessLog, defaultLogger.SetAsync, defaultLogger.SetAccessLogAvailable, defaultLogger.GetMetricsLogAvailable, defaultLogger.SetMetricsLogAvailable, AcquireAccessLogEntity, ReleaseAccessLogEntity | LogInit, startFlush, SetAsync, setAccessStructured, GetLevel, SetLevel, GetAccessLogAvailable, SetAccessLogAvailable, GetMetricsLogAvailable, SetMetricsLogAvailable, newRotateHook, newZapLogger, defaultLogger.Flush |
| log/rotate.go | RotateWriter.Write, RotateWriter.rotate, RotateWriter.openNew, RotateWriter.backupName, RotateWriter.openExistingOrNew, RotateWriter.filename, RotateWriter.millRunOnce, RotateWriter.mill, RotateWriter.oldLogFiles, RotateWriter.timeFromName, RotateWriter.max, RotateWriter.prefixAndExt, RotateWriter.rotatePerHour, compressLogFile, byFormatTime.Less, byFormatTime.Swap, byFormatTime.Len | RotateWriter.Close, RotateWriter.close, RotateWriter.Rotate, RotateWriter.millRun |
| log/rotate_notwin.go | chown |  |
| log/rotate_win.go | none | all |
| main/agentdemo.go | none | all |
| main/clientdemo.go | none | all |
| main/confsDemo/clientDemo.go | none | all |
| main/confsDemo/serverDemo.go | none | all |
| main/serverdemo.go | none | all |
| manageHandler.go | StatusHandler.ServeHTTP, StatusHandler.getRegistryStatus, StatusHandler.getStatus, InfoHandler.getReferService, DebugHandler.ServeHTTP, StatSystem, StatProcess, StatConnections, MeshTrace, formatTc, processReqSpan, processResSpan, CustomTrace.Trace, SwitcherHandler.ServeHTTP, LogHandler.ServeHTTP, setLogStatus, MetaInfo.ServeHTTP, HotReload.ServeHTTP, RuntimeHandler.SetAgent, RuntimeHandler.ServeHTTP, RuntimeHandler.getClusterInfo, RuntimeHandler.getHttpClusterInfo, RuntimeHandler.getExporterInfo, RuntimeHandler.getServersInfo, RuntimeHandler.addInfos, RefersFilterHandler.ServeHTTP | InfoHandler.ServeHTTP, InfoHandler.getAllServices, StatOpenFiles, JSON, Cmdline, sleep, Profile, Trace, Symbol, handler.ServeHTTP, Index |
| meshClient.go | MeshClient.Initialize, MeshClient.BaseCall | MeshClient.BuildRequestWithGroup, MeshClient.Call |
| meta/meta.go | Initialize, PutDynamicMeta, RemoveDynamicMeta, GetDynamicMeta, GetMergedMeta, GetMetaValue, GetEpDynamicMeta, GetEpStaticMeta, getRemoteDynamicMeta, getCacheKey, isSupport | getMetaServiceRequest, ClearMetaCache |
| meta/service.go | none | all |
| metrics/graphite.go | graphite.Write, GenGraphiteMessages | getUDPConn, newGraphite |
| metrics/metrics.go | GetOrRegisterStatItem, GetStatItem, RMStatItem, ClearStatItems, RangeAllStatItem, StatItemSize, safeGet, safePutAbsent, safeDelete, safeExchangeNew, Escape, sendEventWithKeys, ElapseTimeSuffix, event.getMetricKey, DefaultStatItem.getRegistry, DefaultStatItem.AddCounter, DefaultStatItem.AddHistograms, DefaultStatItem.AddGauge, DefaultStatItem.Snapshot, DefaultStatItem.SnapshotAndClear, DefaultStatItem.LastSnapshot, DefaultStatItem.Remove, DefaultStatItem.Clear, DefaultStatItem.Count, ReadonlyStatItem.getCache, ReadonlyStatItem.Count, ReadonlyStatItem.Percentile, ReadonlyStatItem.Value, StartReporter, reporter.eventLoop, reporter.addWriter, reporter.processEvent, reporter.sink, reporter.snapshot | sampleStatus, startSampleStatus, event.reset, DefaultStatItem.SnapshotAndClearV0, DefaultStatItem.Sum, DefaultStatItem.Max, DefaultStatItem.Mean, DefaultStatItem.Min, DefaultStatItem.Percentile, DefaultStatItem.Percentiles, DefaultStatItem.Value, DefaultStatItem.RangeKey, DefaultStatItem.IsHistogram, DefaultStatItem.IsCounter, DefaultStatItem.IsGauge, ReadonlyStatItem.Sum, ReadonlyStatItem.Max, ReadonlyStatItem.Mean, ReadonlyStatItem.Min, ReadonlyStatItem.Percentiles, ReadonlyStatItem.RangeKey, ReadonlyStatItem.IsHistogram, ReadonlyStatItem.IsCounter, ReadonlyStatItem.IsGauge |
| metrics/sampler/sampler.go | RegisterStatusSampler, UnregisterStatusSampler, RangeDo |  |
| protocol/motan1Protocol.go | DecodeMotanV1Request, DecodeMotanV1Response, EncodeMotanV1Response, ReadV1Message, IsV1HeartbeatReq, BuildV1HeartbeatReq, BuildV1HeartbeatRes, BuildV1ExceptionResponse, encodeMotanV1, encodeMotanV1Attachment, writeUtfStr, writeV1Rid, writeV1InnerLength, writeBlock, writeBlockHeader, newObjectStream, simpleObjectStream.parseReq, simpleObjectStream.parseRes, simpleObjectStream.checkObjectStream, simpleObjectStream.readUtfFromBlock, simpleObjectStream.readInt16FromBlock, simpleObjectStream.readIntFromBlock, simpleObjectStream.readLongFromBlock, simpleObjectStream.readAttachments, simpleObjectStream.skipByteArray, simpleObjectStream.getBlock, simpleObjectStream.appendBlockBytes, writeHessianString | EncodeMotanV1Request, IsV1HeartbeatRes, minInt, simpleObjectStream.readUtf, simpleObjectStream.readInt16, simpleObjectStream.readInt, simpleObjectStream.readLong, simpleObjectStream.peekType |
| protocol/motanProtocol.go | Header.Reset, BuildHeartbeat, Header.SetVersion, Header.GetVersion, Header.SetHeartbeat, Header.IsHeartbeat, Header.SetGzip, Header.IsGzip, Header.SetOneWay, Header.IsOneWay, Header.SetProxy, Header.IsProxy, Header.SetRequest, Header.isRequest, Header.SetStatus, Header.GetStatus, Header.SetSerialize, Header.GetSerialize, BuildHeader, Message.Encode0, Message.GetEncodedBytes, Message.Encode, Message.Reset, Message.Clone, Message.SetCanRelease, CheckMotanVersion, DecodeWithTime, DecodeGzipBody, readBytes, EncodeGzip, EncodeMessageGzip, DecodeGzip, ConvertToRequest, ConvertToReqMessage, ConvertToResMessage, ConvertToResponse, BuildExceptionResponse, AcquireMessage, ReleaseMessage | Header.Clone, Decode, ExceptionToJSON |
| provider/cgiProvider.go | CgiProvider.GetRuntimeInfo, CgiProvider.Call, ParseFastCgiResponse | CgiProvider.IsAvailable |
| provider/httpProvider.go | HTTPProvider.GetRuntimeInfo, HTTPProvider.Initialize, HTTPProvider.Destroy, HTTPProvider.SetSerialization, HTTPProvider.rewrite, buildReqURL, buildQueryStr, HTTPProvider.DoTransparentProxy, HTTPProvider.DoProxy, HTTPProvider.DoFormatURLQuery, HTTPProvider.Call, fillExceptionWithCode, fillHttpException, fillException | HTTPProvider.IsAvailable, fillHttpExceptionWithCode |
| provider/httpxProvider.go | HTTPXProvider.GetRuntimeInfo, HTTPXProvider.Initialize, HTTPXProvider.buildReqURLX, HTTPXProvider.Call | HTTPXProvider.IsAvailable |
| provider/metaProvider.go | MetaProvider.Call, MetaProvider.GetRuntimeInfo |  |
| provider/motanProvider.go | MotanProvider.GetRuntimeInfo, MotanProvider.Initialize, MotanProvider.Call, MotanProvider.Destroy, MotanProvider.IsAvailable |  |
| provider/provider.go | RegistDefaultProvider, DefaultProvider.GetRuntimeInfo, DefaultProvider.Initialize, DefaultProvider.Call, MockProvider.GetRuntimeInfo | MockProvider.Call |
| registry/consulRegistry.go | none | all |
| registry/directRegistry.go | DirectRegistry.Discover, parseURLs | DirectRegistry.GetRuntimeInfo, DirectRegistry.SetURL |
| registry/localRegistry.go | none | all |
| registry/meshRegistry.go | MeshRegistry.Initialize, MeshRegistry.Subscribe, MeshRegistry.Discover, MeshRegistry.Register, MeshRegistry.UnRegister, MeshRegistry.initRegistryRequest, MeshRegistry.GetRegisteredServices | MeshRegistry.GetRuntimeInfo, MeshRegistry.readMeshRegistryResponse, MeshRegistry.readMeshRegistryResponseStruct |
| registry/registry.go | flushSnapshot, SetSnapshotConf, RegistDefaultRegistry, IsAgent, GetNodeKey, SaveSnapshot | CheckSnapshotDir, IsCheck, StringToSliceByte, JSONString |
| registry/zkRegistry.go | ZkRegistry.handleNewSession, ZkRegistry.recoverService, ZkRegistry.recoverSubscribe, ZkRegistry.Register, ZkRegistry.doRegister, ZkRegistry.UnRegister, ZkRegistry.Subscribe, ZkRegistry.doSubscribe, ZkRegistry.Unsubscribe, ZkRegistry.Discover, ZkRegistry.SubscribeCommand, ZkRegistry.doSubscribeCommand, ZkRegistry.UnSubscribeCommand, ZkRegistry.DiscoverCommand, ZkRegistry.Available, ZkRegistry.doAvailable, ZkRegistry.Unavailable, ZkRegistry.doUnavailable, ZkRegistry.GetRegisteredServices, ZkRegistry.saveSnapshot, ZkRegistry.removeNode, ZkRegistry.createNode, ZkRegistry.createPersistent, getNodeInfo, ZkRegistry.nodeChildsToURLs, toGroupPath, toServicePath, toCommandPath, toNodeTypePath, toNodePath, toAgentPath, toAgentNodeTypePath, toAgentNodePath, toAgentCommandPath | ZkRegistry.GetRuntimeInfo, ZkRegistry.Initialize |
| serialize/breeze.go | BreezeSerialization.GetSerialNum | BreezeSerialization.Serialize, BreezeSerialization.DeSerialize, BreezeSerialization.SerializeMulti, BreezeSerialization.DeSerializeMulti |
| serialize/pb.go | GrpcPbSerialization.GetSerialNum, GrpcPbSerialization.SerializeMulti, GrpcPbSerialization.Serialize, GrpcPbSerialization.DeSerializeMulti, GrpcPbSerialization.DeSerialize, PbSerialization.GetSerialNum, PbSerialization.SerializeMulti, PbSerialization.serializeBuf, PbSerialization.DeSerialize, PbSerialization.DeSerializeMulti, PbSerialization.deSerializeBuf | PbSerialization.Serialize |
| serialize/serialize.go | RegistDefaultSerializations |  |
| serialize/simple.go | SimpleSerialization.GetSerialNum, SimpleSerialization.Serialize, SimpleSerialization.SerializeMulti, serializeBuf, SimpleSerialization.DeSerialize, SimpleSerialization.DeSerializeMulti, deSerializeBuf, encodeString, encodeStringNoTag, encodeStringMap, encodeBytes, encodeStringArray, encodeBool, encodeMap, encodeArray, encodeByte, encodeInt16, encodeInt32, encodeInt64, encodeFloat32, encodeFloat64, decodeBool, compatDecodeString, decodeString, decodeStringMap, decodeBytes, decodeMap, decodeArray, decodeStringArray, decodeByte, decodeInt16, decodeInt32, decodeInt64, decodeFloat32, decodeFloat64 |  |
| server.go | NewMotanServerContextFromConfig, GetMotanServerContextWithFlagParse, MSContext.Start, MSContext.export, MSContext.RegisterService, MSContext.ServicesAvailable, MSContext.ServicesUnavailable, MSContext.GetRegistryStatus, MSContext.startRegistryFailback, canShareChannel | MSContext.hashInt, MSContext.Initialize, availableService, unavailableService |
| server/httpProxyServer.go | HTTPProxyServer.GetRuntimeInfo, HTTPProxyServer.Open, HTTPProxyServer.doRPC, HTTPProxyServer.doHTTPProxy, HTTPProxyServer.doHTTPRpcProxy |  |
| server/motanserver.go | SetProcessPoolSize, incrConnections, decrConnections, getConnections, MotanServer.GetRuntimeInfo, MotanServer.Open, MotanServer.Destroy, MotanServer.run, MotanServer.handleConn, MotanServer.processV2, MotanServer.processV1, MotanServer.SetHeartbeat, getRemoteIP, setV1Attachments |  |
| server/server.go | RegistDefaultServers, RegistDefaultMessageHandlers, DefaultExporter.GetRuntimeInfo, DefaultExporter.Export, DefaultExporter.Unexport, DefaultExporter.Available, DefaultExporter.Unavailable, DefaultExporter.IsAvailable, DefaultExporter.GetURL, DefaultMessageHandler.GetName, DefaultMessageHandler.GetRuntimeInfo, DefaultMessageHandler.Initialize, DefaultMessageHandler.initFrameworkServiceProvider, DefaultMessageHandler.AddProvider, DefaultMessageHandler.RmProvider, DefaultMessageHandler.GetProvider, DefaultMessageHandler.Call, FilterProviderWrapper.GetRuntimeInfo, FilterProviderWrapper.GetURL, FilterProviderWrapper.SetURL, FilterProviderWrapper.GetPath, FilterProviderWrapper.Call, WrapWithFilter |  |
| tools/nginx/parser.go | Parser.readToken, Parser.Parse, Parser.parseFromStat, visitDirectives, visitLocation, main | init, printDirectives |
