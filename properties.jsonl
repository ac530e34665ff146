{"id": "C01", "title": "Byte buffer write/read round-trip", "statement": "Any sequence of typed values (bytes, 16/32/64-bit integers, raw byte strings, varints, zigzag integers) written to a BytesBuffer of any initial size and byte order, then read back in the same order with the matching Read calls from a buffer created over Bytes(), yields exactly the values written, with no error and nothing left over; growing the buffer never changes what was already written.", "quantifier": "all sequences of typed writes, all initial capacities, both byte orders", "why_tests_cant": "The number of writes, the interleaving of growth with writes and the value space are unbounded.", "anchors": ["core/bytes.go: BytesBuffer.grow, WriteByte, WriteUint16/32/64, Write, WriteString, WriteVarint, WriteZigzag32/64, Read*, Next, Bytes, CreateBytesBuffer"]}
{"id": "C02", "title": "Varint encoding is a bijection onto short canonical strings", "statement": "For every uint64, WriteVarint emits between 1 and 10 bytes and ReadVarint of those bytes (followed by anything) returns the same number and consumes exactly those bytes; ReadVarint never consumes more than 10 bytes of any input, and an input with 10 continuation bytes is an overflow error. Reading succeeds exactly on inputs that start with at most 10 groups of seven bits of which only the last is not continued, and gives their value modulo 2^64; no shorter string of groups has the value of what WriteVarint emits, and no other that does not end in a needless zero group.", "quantifier": "all 2^64 values and all input byte strings", "why_tests_cant": "2^64 values and unbounded inputs.", "anchors": ["core/bytes.go: WriteVarint, ReadVarint, ErrOverflow"]}
{"id": "C03", "title": "Zigzag integers round-trip and stay small", "statement": "For every 32-bit (64-bit) signed integer, zigzag encoding followed by decoding returns it; the encoding of n is 2n for n>=0 and -2n-1 for n<0, so small magnitudes take few bytes.", "quantifier": "all int32 and all int64 values", "why_tests_cant": "2^64 values.", "anchors": ["core/bytes.go: EncodeZigzag / DecodeZigzag (WriteZigzag32, ReadZigzag32, WriteZigzag64, ReadZigzag64)"]}
{"id": "C04", "title": "Message header flag setters are independent", "statement": "On any header, setting one of heartbeat, gzip, oneway, proxy, response, version, status or serialization is visible through exactly its own getter and leaves every other getter (and the request id) unchanged, in any order and number of calls; version or serialization above 31 and status above 7 are refused and change nothing.", "quantifier": "all headers and all finite sequences of setter calls", "why_tests_cant": "All sequences of setter calls over all header values.", "anchors": ["protocol/motanProtocol.go: Header.SetHeartbeat, SetGzip, SetOneWay, SetProxy, SetVersion, SetStatus, SetSerialize and getters"]}
{"id": "C05", "title": "motan2 message framing round-trip", "statement": "Encoding a motan2 message whose metadata and body fit the size limit and decoding the bytes from a stream yields the same header, the same body and the same metadata (restricted to the pairs that the encoder keeps), and leaves the rest of the stream exactly where the message ended; hence any list of messages written back to back is read back as the same list.", "quantifier": "all messages, all stream continuations, all lists of messages", "why_tests_cant": "Message sizes, metadata contents and stream lengths are unbounded.", "anchors": ["protocol/motanProtocol.go: Message.Encode, Encode0, Decode, DecodeWithTime"]}
{"id": "C06", "title": "motan2 decoding of arbitrary bytes is safe", "statement": "Decoding an arbitrary byte stream never panics, never consumes bytes beyond the frame it announces, never allocates for a metadata or body size above the configured maximum, and a stream that is a strict prefix of an encoded message is always an error, never a message. Decoding returns a message exactly if the stream starts with one (magic number, version 1, lengths within the limit, metadata whose lines pair up as non-empty names and values), and then returns its header, its body, for every name the last value given, and leaves what follows in the stream.", "quantifier": "all byte streams and all limits", "why_tests_cant": "All byte streams.", "anchors": ["protocol/motanProtocol.go: DecodeWithTime, CheckMotanVersion, ErrOverSize, ErrMagicNum, ErrVersion, ErrMetadata"]}
{"id": "C07", "title": "Metadata cannot be injected through keys or values", "statement": "Whatever strings an application puts in attachments, after encode and decode the peer sees each transmitted key with exactly its value, sees no key the sender did not set, and a pair with an empty or newline-containing key or value is dropped as a whole without affecting other pairs.", "quantifier": "all attachment maps over all byte strings", "why_tests_cant": "All strings, including adversarial ones.", "anchors": ["protocol/motanProtocol.go: Encode0 metadata loop, DecodeWithTime metadata loop"]}
{"id": "C08", "title": "Simple serialization round-trip", "statement": "Every value built from the supported types (nil, string, byte array, bool, byte, int16/32/64, floats, string array, string map, nested generic map and array) serializes and deserializes to an equal value. The exceptions in this code are stated and exhibited: nil nested in a generic container is refused and empty containers come back as nil.", "quantifier": "all supported values of any nesting depth and size", "why_tests_cant": "Nesting depth and sizes are unbounded.", "anchors": ["serialize/simple.go: SimpleSerialization.Serialize, DeSerialize, serializeBuf, deSerializeBuf"]}
{"id": "C09", "title": "Simple deserialization of arbitrary bytes is contained", "statement": "Deserializing an arbitrary byte string with the simple serialization terminates with a value or an error and never reads outside the given bytes; announced container sizes are enforced, so no element read crosses its container's end unnoticed. (A container, byte array or map used as a map key makes the code panic; this is exhibited.)", "quantifier": "all byte strings", "why_tests_cant": "All byte strings.", "anchors": ["serialize/simple.go: deSerializeBuf, decodeMap, decodeArray, decodeString, decodeBytes"]}
{"id": "C10", "title": "Multi-argument serialization round-trip", "statement": "Serializing a list of arguments and deserializing the bytes without type hints yields the same list in order; the length of the list is preserved. (A byte string cut inside the last argument's fixed-size scalar is accepted as a shorter list; this is exhibited.)", "quantifier": "all argument lists", "why_tests_cant": "Unbounded lists.", "anchors": ["serialize/simple.go: SerializeMulti, DeSerializeMulti"]}
{"id": "C11", "title": "Request and response conversion preserves the call", "statement": "Converting a request to a motan2 message and the message back to a request preserves service, method, method description, attachments and (serialized) arguments; the request id seen by the handler is the M_rid attachment read as a signed 64-bit decimal when it is present (a malformed one is read as 0) and otherwise the id of the header; a relayed call keeps its header, body and metadata except the group and the recorded id; an exception answer arrives as the same exception, a normal answer as the same value bytes.", "quantifier": "all requests and responses", "why_tests_cant": "All requests, attachments and ids.", "anchors": ["protocol/motanProtocol.go: ConvertToReqMessage, ConvertToRequest, ConvertToResMessage, ConvertToResponse, ExceptionToJSON"]}
{"id": "C12", "title": "Java object-stream blocks round-trip", "statement": "For any non-empty content split in any way over the arguments of the block writer, reading the block back returns the concatenated content; the reader stops exactly after the last block. (When the content is an exact multiple of 1024 of at least 2048 bytes and something else follows, the reader consumes one byte too many; this is exhibited.)", "quantifier": "all block contents and all splits", "why_tests_cant": "All lengths and contents.", "anchors": ["protocol/motan1Protocol.go: writeBlock, writeBlockHeader, getBlock, appendBlockBytes"]}
{"id": "C13", "title": "motan1 frames are checked and proxied faithfully", "statement": "A motan1 frame is accepted only if both length fields agree with each other and the limit and the inner magic is right, and exactly that many bytes are consumed; re-encoding a decoded request with changed attachments yields a frame that is accepted again, carries the new request id in both headers and decodes to the same service, method, descriptor and argument bytes and to the new attachments. (Exhibited exceptions: a request without arguments whose attachments are in a separate block loses its names; names that fill 2048, 3072, ... bytes exactly lose the first byte of the arguments; strings of 32768 bytes or more are misread.)", "quantifier": "all byte streams and all requests", "why_tests_cant": "All streams and attachment maps.", "anchors": ["protocol/motan1Protocol.go: ReadV1Message, encodeMotanV1, encodeMotanV1Attachment, parseReq, readAttachments, writeV1Rid, writeV1InnerLength"]}
{"id": "C14", "title": "motan1 exception and heartbeat responses are well-formed frames", "statement": "For every request id and every non-empty error message, the built exception response (and heartbeat request/response) is one frame that the frame reader accepts, with that id in both headers, and decodes to an exception (a heartbeat); the error text can be read back from it if it is shorter than 65536 bytes.", "quantifier": "all ids and messages", "why_tests_cant": "All ids and messages.", "anchors": ["protocol/motan1Protocol.go: BuildV1ExceptionResponse, BuildV1HeartbeatReq, BuildV1HeartbeatRes"]}
{"id": "C15", "title": "URL ext-info round-trip", "statement": "A URL whose fields and parameters avoid the separator characters is recovered from its ext-info string with equal protocol, host, port, path, group and parameters; ext-info does not depend on map iteration order.", "quantifier": "all URLs over separator-free strings", "why_tests_cant": "All strings and parameter maps.", "anchors": ["core/url.go: ToExtInfo, FromExtInfo"]}
{"id": "C16", "title": "Integer parameter cache is coherent", "statement": "After any history of reading integer parameters and storing parameters through PutParam, reading an integer parameter returns exactly what parsing the current parameter string gives. (Storing through MergeParams after a read leaves stale values; this is exhibited.)", "quantifier": "all histories of reads and writes", "why_tests_cant": "All histories.", "anchors": ["core/url.go: GetInt, GetIntValue, PutParam, MergeParams, ClearCachedInfo, intParamCache"]}
{"id": "C17", "title": "Method-level parameters override service-level ones", "statement": "A method-level integer parameter for method(desc) takes precedence over the service-level parameter, which takes precedence over the default; positive-int variants never return a value below 1 unless the default is; a method parameter added at any time through PutParam is seen.", "quantifier": "all URLs, methods, keys and histories", "why_tests_cant": "All parameter maps and histories.", "anchors": ["core/url.go: GetMethodIntValue, GetMethodPositiveIntValue, GetPositiveIntValue, hasMethodParams, PutParam"]}
{"id": "C18", "title": "Service routing match", "statement": "An agent with one cluster for a service always uses it; with several, it uses the first cluster whose URL matches group, protocol (motan2 accepts motan) and version (ignored when either side has none), and reports an error, never a wrong cluster, when none matches or the group is empty.", "quantifier": "all cluster tables and requests", "why_tests_cant": "All tables and requests.", "anchors": ["agent.go: agentMessageHandler.findCluster", "core/url.go: IsMatch"]}
{"id": "C19", "title": "Deep configuration merge precedence", "statement": "Merging configurations is deterministic: for any path of keys the merged value is the overriding file's scalar when it has one, the concatenation when both sides are lists, and otherwise the base value; merging never loses a key of the base and nil overrides nothing.", "quantifier": "all configuration trees", "why_tests_cant": "All trees of unbounded depth.", "anchors": ["config/config.go: mergeMap, Merge", "core/globalContext.go: parsePoolConfiguration"]}
{"id": "C20", "title": "Copy-on-write map is linearizable with stable snapshots", "statement": "Under any interleaving of Store, Delete, Swap, Load and Range by any number of goroutines, every operation behaves as if executed atomically on one map, no completed Store is lost, and a Range observes one consistent snapshot unaffected by later writes.", "quantifier": "all interleavings and operation sequences", "why_tests_cant": "All interleavings.", "anchors": ["core/map.go: CopyOnWriteMap"]}
{"id": "C21", "title": "Switcher notifications happen exactly on change", "statement": "After any history of SetValue calls a switcher reads as the last value set, each listener was called once per actual change with the new value and never for a no-op set, registering an existing name or an empty name changes nothing.", "quantifier": "all histories", "why_tests_cant": "All histories.", "anchors": ["core/switcher.go: Register, GetSwitcher, SetValue, Watch"]}
{"id": "C22", "title": "Group-weighted load balancing uses groups in proportion", "statement": "With the configured group weights, one full turn of the selection ring picks every group exactly weight/gcd times; weights are clamped to 1..100; from then on any window of ring-size consecutive selections has exactly these counts. (A configuration giving every present group weight zero makes the refresh divide by zero; this is exhibited.)", "quantifier": "all weight strings and group endpoint sets, all ring shuffles", "why_tests_cant": "All weights, shuffles and positions.", "anchors": ["lb/lb.go: WeightedLbWrapper.OnRefresh, findGcd, selectNextGroup / WeightRing"]}
{"id": "C23", "title": "Weighted round robin (ring mode) is exactly proportional", "statement": "In ring mode every endpoint occurs in the ring exactly weight/gcd times and any ring-size consecutive selections choose every endpoint exactly that often when all are available.", "quantifier": "all endpoint lists and weights allowed in ring mode, all shuffles and start positions", "why_tests_cant": "All weights, shuffles and start positions.", "anchors": ["lb/weightRoundRobinLb.go: ringSelector, NotifyWeightChange"]}
{"id": "C24", "title": "Sliding-window smooth weighted round robin is fair", "statement": "With the window covering all endpoints and all available, the smooth weighted selection returns to its initial state after total-weight selections, and in that period every endpoint is chosen exactly weight times; at every step the dynamic weights sum to zero. (Availability that does not change when it is asked; with the fail-fast filter it does, see C110.)", "quantifier": "all weight vectors and numbers of selections", "why_tests_cant": "All weight vectors and all prefixes.", "anchors": ["lb/weightRoundRobinLb.go: slidingWindowWeightedRoundRobinSelector.DoSelect"]}
{"id": "C25", "title": "Load balancers only return available endpoints, and find one if it exists", "statement": "Random, round-robin, weighted-ring and consistent-hash selection return an endpoint that reports available, or none; if at least one endpoint is available random, round-robin and ring selection return one, for every random number drawn. (The sliding-window fallback can miss the only available endpoint; exhibited. Availability that does not change when it is asked; see C110.)", "quantifier": "all endpoint lists, availabilities and random draws", "why_tests_cant": "All lists, availabilities and draws.", "anchors": ["lb/lb.go: SelectOneAtRandom, SelectArrayFromIndex", "lb/roundrobinLb.go", "lb/randomLb.go", "lb/consistentHashKeyLb.go", "lb/weightRoundRobinLb.go"]}
{"id": "C26", "title": "Endpoint arrays for hedged calls are distinct and available", "statement": "The array of endpoints selected for one call contains at most three endpoints, all available, all at distinct positions, in ring order from the chosen start, and is empty only if no endpoint is available. (Availability that does not change when it is asked; with the fail-fast filter it does, see C110.)", "quantifier": "all endpoint lists and starts", "why_tests_cant": "All lists and starts.", "anchors": ["lb/lb.go: SelectArrayFromIndex, MaxSelectArraySize"]}
{"id": "C27", "title": "Failover makes a bounded number of attempts and never hides a business result", "statement": "A failover call performs at most retries+1 endpoint calls, stops at the first success or business exception and returns exactly that response, makes no call after no endpoint is selectable, and on exhaustion returns the last attempt's error response, or an exception with the request's id if that attempt gave no response.", "quantifier": "all retry settings and all sequences of endpoint outcomes", "why_tests_cant": "All outcome sequences.", "anchors": ["ha/failoverHA.go: FailOverHA.Call"]}
{"id": "C28", "title": "Backup requests are bounded and answer with a real reply", "statement": "A backup-request call issues at most retries+1 endpoint calls; a response returned to the caller is one produced by one of these calls (or the documented timeout error); no more backup requests are issued within a counting round (at most 101 calls and about 20 seconds) than the configured limit.", "quantifier": "all schedules of replies and timers, all settings", "why_tests_cant": "All schedules.", "anchors": ["ha/backupRequestHA.go: BackupRequestHA.Call, updateCallRecord, tryAcquirePermit"]}
{"id": "C29", "title": "Fail-fast filter state machine", "statement": "An endpoint behind the fail-fast filter becomes unavailable exactly when ten consecutive failures (no response, or one with an exception of any kind) have been recorded with no success between, every success that no other call overlaps restores it, and while it is unavailable at most one probe per test interval is let through, under any interleaving of concurrent calls.", "quantifier": "all interleavings of call results and availability checks", "why_tests_cant": "All interleavings.", "anchors": ["filter/failfast.go: FailfastFilter.Filter, IsAvailable"]}
{"id": "C30", "title": "Filters run in index order", "statement": "For any set of configured filters, the built chain runs each configured filter exactly once around the call, ordered by ascending index from the outside in, with the terminal filter innermost.", "quantifier": "all filter configurations", "why_tests_cant": "All filter sets.", "anchors": ["core/url.go: GetURLFilters", "server/server.go: WrapWithFilter", "cluster/motanCluster.go: addFilter"]}
{"id": "C31", "title": "Request timeout is always within the allowed window", "statement": "The timeout used for a call is the request's own M_tmo value if that lies within the configured minimum and maximum (or half and double of the configured timeout when these are unset), and otherwise the method- or service-level timeout; it is positive whenever the least allowed timeout is positive, and a value of M_tmo that is not a number then has no effect.", "quantifier": "all URLs and requests", "why_tests_cant": "All parameter values.", "anchors": ["endpoint/motanCommonEndpoint.go: GetRequestTimeout", "endpoint/motanEndpoint.go: GetRequestTimeout"]}
{"id": "C32", "title": "Endpoint availability state machine", "statement": "An endpoint becomes unavailable when the consecutive-error threshold is reached, becomes available again only by a successful heartbeat (or initial connect), runs at most one keepalive loop at any time, and after Destroy never starts another keepalive; a non-positive threshold never disables it. Under all interleavings of calls, heartbeats and Destroy.", "quantifier": "all interleavings of calls, keepalive ticks and Destroy", "why_tests_cant": "All interleavings.", "anchors": ["endpoint/motanCommonEndpoint.go: recordErrAndKeepalive, resetErr, keepalive, Destroy"]}
{"id": "C33", "title": "Responses reach the caller that sent the request, at most once", "statement": "On a shared connection, under any interleaving of concurrent calls, responses in any order, unknown or duplicate response ids, timeouts, send failures and shutdown, with call objects recycled through a pool, a caller only ever receives a response whose id is the one it sent, each response is delivered at most once, and the id in the delivered response is the caller's own request id.", "quantifier": "all interleavings and all orders of responses", "why_tests_cant": "All interleavings.", "anchors": ["endpoint/motanCommonEndpoint.go: Channel, Stream, newStream, handleMsg, notify, Recv, RemoveFromChannel, AcquireStream, ReleaseStream"]}
{"id": "C34", "title": "Generated request ids do not repeat within a window", "statement": "For any non-decreasing clock (and indeed any clock readings), among any 2^20 consecutive ids generated by any number of goroutines no two are equal.", "quantifier": "all clocks, all interleavings, all positions of the window", "why_tests_cant": "Unbounded histories and clock behaviours.", "anchors": ["endpoint/endpoint.go: GenerateRequestID"]}
{"id": "C35", "title": "Cluster keeps serving on registry updates", "statement": "After a registry notification the cluster's endpoints are exactly those announced (servable ones), endpoints present before with the same identity are kept (same object), removed ones are destroyed and no endpoint in use is destroyed; an empty notification never removes the only registry's endpoints.", "quantifier": "all notification histories", "why_tests_cant": "All histories.", "anchors": ["cluster/motanCluster.go: Notify, refresh, notifyDestroy"]}
{"id": "C36", "title": "Refers filter include/exclude rules", "statement": "An endpoint passes the refers filter iff no exclude rule matches it and (no include rules exist or some include rule matches); if the filter would remove everything the unfiltered list is used, so filtering never empties a non-empty cluster.", "quantifier": "all rules and endpoint lists", "why_tests_cant": "All rules and lists.", "anchors": ["cluster/RefersFilter.go", "cluster/motanCluster.go: filterRefers"]}
{"id": "C37", "title": "Traffic commands select by priority and pattern", "statement": "Of all commands matching a service the traffic-control command with the lowest index applies, agent-level over service-level; nodes are kept exactly when they satisfy the route rules ('!' negation, '*' prefix); repeated identical commands have no effect. (The documented fallback to the own group when routes remove all nodes never fires; exhibited.)", "quantifier": "all command sets and node lists", "why_tests_cant": "All commands and lists.", "anchors": ["cluster/command.go: mergeCommand, processRoute, isMatch, getResultWithCommand"]}
{"id": "C38", "title": "Switcher commands are undone when withdrawn", "statement": "After any sequence of switcher commands by one cluster, every switcher no longer named by the current command has the value it had before commands named it, and every named one has the commanded value.", "quantifier": "all command sequences", "why_tests_cant": "All sequences.", "anchors": ["cluster/command.go: processSwitcherCommand, oldSwitcherMap"]}
{"id": "C39", "title": "Server answers each request with its own id", "statement": "For every decoded request the server writes exactly one response carrying the connection-level request id of the request, whether the handler returns, fails, is missing or panics; heartbeats are answered with heartbeats. (A motan1 request that fails to decode gets no answer because of a nil dereference; exhibited.)", "quantifier": "all requests and handler outcomes", "why_tests_cant": "All requests and outcomes.", "anchors": ["server/motanserver.go: processV2, processV1, setV1Attachments", "server/server.go: DefaultMessageHandler.Call", "agent.go: serverAgentMessageHandler.Call"]}
{"id": "C40", "title": "Provider routing on the server", "statement": "A request is served by the provider registered for its service name (for the agent: group and service) and by no other; removing a provider stops exactly its service; unknown services get the not-exist exception. (Agent group/service keys containing '_' can collide; exhibited.)", "quantifier": "all provider tables and histories", "why_tests_cant": "All tables and names.", "anchors": ["server/server.go: DefaultMessageHandler", "agent.go: serverAgentMessageHandler, getServiceKey"]}
{"id": "C41", "title": "Dynamic registration survives a crash", "statement": "After any history of dynamic register/unregister/subscribe requests and a crash at any point after a completed request, recovery re-creates exactly the registered and subscribed nodes of the last saved snapshot, which are those of all completed requests. (Unregister after register under a group suffix, and the exporter table key mismatch, break the inverse; exhibited.)", "quantifier": "all histories and crash points between requests", "why_tests_cant": "All histories and crash points.", "anchors": ["dynamicConfig.go: DynamicConfigurer", "agent.go: ExportService, UnexportService, doExportService"]}
{"id": "C42", "title": "Agent serving status survives a restart", "statement": "After a restart with recovery, the agent's serving status is the last one set. (False of the code: the status file always records OK; exhibited with a witness; what holds is proved.)", "quantifier": "all histories of status changes and restarts", "why_tests_cant": "All histories.", "anchors": ["agent.go: SetAllServicesAvailable, SetAllServicesUnavailable, saveStatus, recoverStatus"]}
{"id": "C43", "title": "Zookeeper registration state follows the calls and is rebuilt on reconnect", "statement": "After any history of Register, UnRegister, Available and Unavailable for individual services and session losses, a registered service has exactly one of the server or unavailable-server nodes according to its last availability call, and a new session restores the same nodes; a client discovers exactly the available services of its group and path, each once. (Available-all followed by a single Unavailable, and UnRegister of an available service, are restored wrongly; exhibited.)", "quantifier": "all histories including session loss", "why_tests_cant": "All histories.", "anchors": ["registry/zkRegistry.go: doRegister, UnRegister, doAvailable, doUnavailable, recoverService"]}
{"id": "C44", "title": "HTTP location matching follows exact, regexp, longest-prefix order", "statement": "Pick returns the first exact location equal to the path, else the first matching regexp location in configuration order, else the matching prefix location with the longest non-empty prefix (first among equals), and reports no match otherwise.", "quantifier": "all location lists and paths", "why_tests_cant": "All lists and paths.", "anchors": ["http/httpProxy.go: LocationMatcher.Pick, NewLocationMatcher"]}
{"id": "C45", "title": "Metric events are neither lost nor double counted", "statement": "Under any interleaving of event submissions, processing and periodic snapshot-and-clear, for every counter key the sum over all snapshots taken plus the live value plus the events still queued, in work, dropped because the queue was full or failed because events of two kinds were submitted for one key equals the sum submitted; the events of a finished call are one per thing counted. (A snapshot read while a worker still adds to it misses that event; exhibited.)", "quantifier": "all interleavings", "why_tests_cant": "All interleavings.", "anchors": ["metrics/metrics.go: sendEventWithKeys, processEvent, SnapshotAndClear"]}
{"id": "C46", "title": "Circular recorder keeps the latest records", "statement": "After any number of AddRecord calls, GetRecords returns exactly the most recent min(n,size) non-nil records, oldest first.", "quantifier": "all histories and sizes", "why_tests_cant": "All histories.", "anchors": ["core/motan.go: CircularRecorder"]}
{"id": "C47", "title": "Pooled requests and responses carry nothing over", "statement": "A request or response obtained from the pool after release exposes none of the previous call's id, names, arguments, attachments, value or exception through the API. (AsyncCall and timestamps survive; exhibited.)", "quantifier": "all contents at release", "why_tests_cant": "All contents.", "anchors": ["core/motan.go: MotanRequest.Reset, MotanResponse.Reset, RPCContext.Reset"]}
{"id": "C48", "title": "Cloned requests are isolated", "statement": "Changing attachments of a cloned request never changes the original and vice versa, and the clone equals the original in id, service, method, description, arguments and attachments at the time of cloning.", "quantifier": "all requests and all later histories of attachment changes", "why_tests_cant": "All histories.", "anchors": ["core/motan.go: MotanRequest.Clone", "core/map.go: StringMap.Copy"]}
{"id": "C49", "title": "motan1 decoding of arbitrary bytes is contained, but for two shapes of frames", "statement": "Decoding any motan1 frame, packed or not, as a request or as a response, ends with a result or an error and does not panic, with exactly these exceptions. (1) Full blocks of 1024 bytes, at least one, and then the first byte of a block as the last byte of the stream, at its beginning or (in requests) behind names and any number of arguments. (2) A response with flag 1 whose value is a string that says that it is longer than it is. Both are violations: such frames are accepted from a connection and make the decoder panic.", "quantifier": "all frames, all results of unpacking", "why_tests_cant": "All byte strings.", "anchors": ["protocol/motan1Protocol.go: parseReq, parseRes, getBlock, appendBlockBytes, skipByteArray"]}
{"id": "C50", "title": "URL identity and address strings", "statement": "After any history of method calls on a URL its address and port strings are those of its fields, and so is its identity unless it is a direct URL whose address parameter changed (exhibited); two URLs with equal identity agree on protocol, host, port, path and group when these avoid the separators.", "quantifier": "all URLs and all histories of method calls", "why_tests_cant": "All field values and histories; the cluster and the agent reuse endpoints and services by identity, so a collision merges two services.", "anchors": ["core/url.go: GetIdentity, GetAddressStr, GetPortStr, ClearCachedInfo"]}
{"id": "C51", "title": "Placeholder replacement is exact", "statement": "Replacing placeholders changes exactly the string values that are one whole ${key} whose key has a non-null value in the dynamic parameters, at any depth of maps, and leaves every other value, list and key as it was.", "quantifier": "all configuration trees and parameter maps", "why_tests_cant": "All trees of unbounded depth and all strings.", "anchors": ["config/config.go: ReplacePlaceHolder, replace, getPlaceholderValue"]}
{"id": "C52", "title": "Pool configuration priority", "statement": "For any directory of configuration files the scalar of the file named by the whole pool name wins; without one, the application's; then an imported service's; the basic file is the weakest. Circular HTTP-location imports terminate; every location that is imported, directly or by way of others, is merged exactly once, and no other is. (An HTTP location imported by a later service overrides an earlier service although documented weaker; exhibited.)", "quantifier": "all configuration directories, pools and applications", "why_tests_cant": "All directories of files.", "anchors": ["core/globalContext.go: parsePoolConfiguration, importCfgIgnoreError", "config/config.go: Merge"]}
{"id": "C53", "title": "An endpoint taken out of service is being brought back", "statement": "As long as Destroy has not been called, an endpoint that is not available has a goroutine that connects, is about to start a keepalive, or is in a keepalive that has not finished: it never stays out of service with nobody seeing to it.", "quantifier": "all interleavings of calls, keepalive ticks and connection attempts", "why_tests_cant": "The loss needs a failing call between two statements of a finishing keepalive.", "anchors": ["endpoint/motanCommonEndpoint.go: recordErrAndKeepalive, keepalive, initChannelPoolWithRetry"]}
{"id": "C54", "title": "Dynamic registration requests do what they say", "statement": "An accepted register, unregister or subscribe request makes one call for every group it names or the environment adds, each group once, for the same service, with the registry the request names. Registered nodes are at the agent's own address and export port and record the service's own protocol and port; their filters are exactly the agent's filters not disabled by the request plus those the application asks for; unregistering with the same body names the same nodes. A request is refused exactly if no configured registry is named. (A group given only among the parameters is accepted and nothing is done; exhibited.)", "quantifier": "all request bodies, environments and registry tables", "why_tests_cant": "All bodies and environments.", "anchors": ["dynamicConfig.go: readURLsFromRequest, parseURL, register, unregister, subscribe", "agent.go: initProxyServiceURL"]}
{"id": "C55", "title": "HTTP paths are rewritten by the first rule that applies", "statement": "A request's path is rewritten by the first rule of its location, in the order of the configuration, whose condition holds (or, written with an exclamation mark, does not hold) and whose expression matches; the new path is the rule's template expanded by the match, with each {name} replaced by its value in the query for rules that ask for it. Lines that are no rules change nothing, a path no rule applies to is left alone, and the provider sends the request to exactly that path. (Values that look like variables are replaced again, and a rule with white space at its end is dropped; both exhibited.)", "quantifier": "all rule lines, paths, queries and regular-expression engines", "why_tests_cant": "All rule lists, paths and queries.", "anchors": ["http/httpProxy.go: newRewriteRule, rewriteRule.rewrite, ProxyLocation.DeterminePath, PatternSplit", "provider/httpProvider.go: HTTPProvider.rewrite"]}
{"id": "C56", "title": "Frames on a connection are whole", "statement": "When an agent forwards requests, every frame it writes to a connection is the complete frame of one attempt to send one request on that connection (its stream id, metadata, size and body), each attempt is written at most once, and the size announced is the size of the body, although messages are pooled and a connection's writer runs later than the call. (False of the code with retries, which is exhibited: a retry, or the answer to the caller, while an earlier attempt still waits to be written changes the waiting frame, empties its body or gives it another request's body.)", "quantifier": "all schedules of receiving, attempting, queueing, writing, answering and reusing pooled messages, all channels", "why_tests_cant": "All interleavings of the callers with the writers of all connections.", "anchors": ["protocol/motanProtocol.go: Message.Encode0, GetEncodedBytes, Reset, AcquireMessage, ReleaseMessage, ConvertToReqMessage", "endpoint/motanCommonEndpoint.go: Stream.Send, Channel.send", "server/motanserver.go: processV2"]}
{"id": "C57", "title": "Protobuf serialization round-trip", "statement": "Any list of arguments of the supported kinds and of messages, serialized with the protobuf serialization, deserializes to the same values with targets of their types, whatever bytes follow; integers of one value have one encoding whatever their width; and decoding arbitrary bytes into kinds, messages and pointers to slices never panics. (int comes back as int64 and uint as uint64. False of the code and exhibited: a pointer to int or uint given as a target is not assigned; arrays of messages cannot be serialized and come back as repetitions of one message; a slice parameter panics.)", "quantifier": "all argument lists of all kinds and widths, all messages, all byte strings", "why_tests_cant": "All values of all kinds in all combinations; arbitrary bytes from the network.", "anchors": ["serialize/pb.go: PbSerialization.SerializeMulti, DeSerializeMulti, serializeBuf, deSerializeBuf; GrpcPbSerialization"]}
{"id": "C58", "title": "A service method is called with the caller's arguments", "statement": "A request whose arguments were serialized for the parameters of the method it names runs exactly that method of the provider exported last for its path, with exactly those arguments, and the answer is what the method returns; whatever bytes arrive, a method runs only with one argument of the type of each of its parameters and never with others than the caller passed; every other request, and one whose method panics, gets an exception. (With the protobuf serialization methods that have an int, uint or pointer-to-value parameter never run, nil arguments and empty method names panic, and two services with one path share a provider, which is exhibited.)", "quantifier": "all services, method names, argument lists and byte strings; all histories of exporting and unexporting", "why_tests_cant": "Any service, any arguments, arbitrary bytes.", "anchors": ["provider/provider.go: DefaultProvider.Call, Initialize", "core/util.go: FirstUpper", "core/motan.go: MotanRequest.ProcessDeserializable", "server/server.go: DefaultMessageHandler.AddProvider, RmProvider, Call"]}
{"id": "C59", "title": "The connections of an endpoint are bounded and none is leaked", "statement": "At no time does an endpoint have more connections open than configured, however the goroutines taking connections, breaking connections and closing the pool interleave; when the pool has been closed and all calls have returned, no connection is open, and none is left when the pool cannot be made; the goroutines never wait for each other for ever; and a connection taken from the pool was open when it was looked at, or is new. (A call that takes a broken connection just before the pool is closed panics, which is exhibited.)", "quantifier": "all schedules of any number of goroutines, all patterns of dialling outcomes and breaking connections, all pool sizes, lazy or not", "why_tests_cant": "All interleavings and failure patterns.", "anchors": ["endpoint/motanCommonEndpoint.go: NewChannelPool, ChannelPool.Get, ChannelPool.Close, retChannelPool, Channel.Close"]}
{"id": "C60", "title": "An HTTP service receives the HTTP request a Motan call stands for", "statement": "A Motan request handed to the HTTP provider is sent upstream at most once; each attachment arrives as the header it is meant for and no other header is made up; the method, query string and body are those of the caller; a map argument is read back by the server as exactly its entries, whatever bytes the values hold, as a form or as a query with the request's identifier and the configured attachments; the caller's address is forwarded; and the answer is the upstream's body and status, or an exception whose code tells whether the request was refused, the exchange failed or the upstream answered an error. (Two attachments meant for one header, names of form entries that hold & or =, a call without argument, the type of the exception for a failed exchange, and rewriting rules that do not see the arguments of a GET are exhibited as defects.)", "quantifier": "all requests, attachments in every order of iteration, arguments, configurations, upstream behaviours and header canonicalisations", "why_tests_cant": "Any attachments, any bytes in the values, any map order.", "anchors": ["http/httpProxy.go: MotanRequestToFasthttpRequest, FasthttpResponseToMotanResponse", "provider/httpProvider.go: HTTPProvider.Call, DoTransparentProxy, DoProxy, DoFormatURLQuery, buildReqURL, buildQueryStr"]}
{"id": "C61", "title": "Hot reload serves exactly the new references and never a destroyed cluster", "statement": "After a reload of the configuration, a service can be called exactly if the new configuration or a dynamic subscription refers to it, with one cluster for each reference; if starts and subscriptions interrupt the reload this holds of the references it began with. A reference that is unchanged keeps its cluster, a cluster whose reference is gone is destroyed, and no cluster is lost without being destroyed when references are distinct. Reloading the same references again creates and destroys nothing. A subscription stays, as it was first made, whatever reloads and further subscriptions follow. However starts, subscriptions and reloads interleave, no request is routed to a destroyed cluster.", "quantifier": "all tables, all lists of references in any order, all interleavings of initialisation, subscription and reload steps", "why_tests_cant": "A test reloads one small configuration once; the claim is about every sequence of configurations and every interleaving with subscriptions.", "anchors": ["agent.go: Agent.reloadClusters", "agent.go: Agent.initCluster", "agent.go: Agent.SubscribeService", "dynamicConfig.go: DynamicConfigurer.doSubscribe", "cluster/motanCluster.go: MotanCluster.parseRegistry", "ha/ha.go", "registry/zkRegistry.go: ZkRegistry.doSubscribe"]}
{"id": "C62", "title": "A remote call gives the caller the handler's answer to the caller's request", "statement": "For every call made through an endpoint over a connection to a server, the handler is given the caller's service, method, description, arguments, attachments and the group of the endpoint, and the caller gets the handler's value or exception and attachments, under the id of its own request and not that of the connection. Whatever goes wrong (no pool, no connection, an error, an unreadable answer, a handler that returns nothing or panics) the caller gets an exception with its id, and exactly the exceptions that are not the business's count against the server.", "quantifier": "all requests, arguments, attachments, compression settings, handlers, answers and failures of the connection", "why_tests_cant": "A test calls a few methods with a few values; the claim is about every request and every answer, compressed or not, and every way a call can end.", "anchors": ["endpoint/motanCommonEndpoint.go: MotanCommonEndpoint.Call, fitGroup, Stream.Send, Stream.notify, Channel.recvLoop, Channel.handleMsg", "server/motanserver.go: processV2", "protocol/motanProtocol.go"]}
{"id": "C63", "title": "Agents that relay a call do not show", "statement": "For every call that passes through any number of relaying agents between the caller and the server, the handler is given the caller's service, method, description, request id, arguments and attachments, with the source and protocol the caller named and the group of the last agent's endpoint; the caller gets, under its own id, exactly the handler's value or exception and attachments, and besides the address the first agent called. An agent fills in a source and a group only where the caller named none. A handler that returns nothing, or panics, is reported to the caller as the same exception as without agents.", "quantifier": "all requests, arguments, attachments, handlers and answers, all numbers and configurations of agents, compressed or not at each hop", "why_tests_cant": "A test sets up one agent and calls a few methods; the claim is about every chain of agents and every request and answer, where each hop converts the message twice in each direction.", "anchors": ["agent.go: agentMessageHandler.Call, clusterCall, fillDefaultReqInfo", "endpoint/motanCommonEndpoint.go", "server/motanserver.go: processV2", "protocol/motanProtocol.go: ConvertToRequest, ConvertToReqMessage, ConvertToResponse, ConvertToResMessage"]}
{"id": "C64", "title": "Weighted selection uses the weights the servers announce", "statement": "However refreshes of the endpoint list, periodic ticks, the goroutines that ask the servers and their answers interleave, the weighted load balancer at every moment uses the endpoints of one list it was given, in order, each with a weight between 1 and 500 that is the one in its URL or one its server announced. When nobody is refreshing and no server took longer to answer than is waited for, these are exactly the endpoints given last, each with the weight its server announced last, else the one in its URL, else 10. An endpoint that stays in the list keeps the weight announced for it. (With a server slower than that, an announced weight may never be used, and the process may die of a panic, which is exhibited.)", "quantifier": "all schedules of the goroutines, all endpoint lists, metadata and answers, failed, refused, late or missing", "why_tests_cant": "A test waits for one refresh with fast servers; the claim is about all interleavings of two refreshing goroutines and one per server.", "anchors": ["lb/weightedEpRefresher.go", "lb/weightRoundRobinLb.go: NotifyWeightChange", "meta/meta.go: GetMetaValue, GetEpStaticMeta"]}
{"id": "C65", "title": "Configured references and services become what the configuration says", "statement": "Every service, reference and HTTP client of the configuration becomes one with the protocol, host, port, path, group and parameters of its own entry, completed by those of the basic entry it names, and with exactly the filters of the agent it does not disable, those of the environment and the program, and its own. A service is exported in each group it or the environment names, once, with the registry suffix at the end, and in no other. With a subscription suffix, each reference has one companion in the group with the suffix, never twice the same identity, and nothing else is added. A parameter that depends on the pool takes the value of its pool, else of a matching pattern, else the default. In the configuration an agent uses, a string that is exactly one placeholder is the value of its parameter, if it has one, at any depth of maps, and everything else is left as it is. The order in which the references are visited does not matter. (An empty port, or a list of groups without a group, stops the program; when several patterns match a pool the order of the map decides, and one without a value hides the others; generated names may clash and a service or subscription be lost; a cached identity may be stale; all exhibited.)", "quantifier": "all configurations, environments, orders of map iteration", "why_tests_cant": "Tests convert a few configurations; the claim is for all settings, all combinations of basic entries, groups and suffixes and all iteration orders.", "anchors": ["core/globalContext.go: confToURL, confToURLs, basicConfToURLs, MergeFilterSet, parseMultipleServiceGroup, parseRegGroupSuffix, parseSubGroupSuffix, parseRefers, parseServices, getDynamicParameters"]}
{"id": "C66", "title": "Log lines are kept, in order, and old logs are cleaned up as configured", "statement": "What a program writes to its log is, completely and in order, in the files moved aside followed by the log file, whatever system calls fail and wherever the process dies, also during a rotation, a compression or a write; each file moved aside is there, plain or compressed, until the clean-up removes it. The log file never exceeds its maximal size, and a larger write is refused without effect. The clean-up removes only files moved aside that are too old or beyond the wanted number of newest ones, keeps no more than that number, counting a file and its compressed form as one, and never touches the log file. (All this as long as no file moved aside is given a name used before: names have the precision of an hour, so a second rotation within an hour replaces the file of the first; exhibited, as are a failing stat that wipes the log, a file name that ends the process, the default size, and ages off by the time zone.)", "quantifier": "all sequences of writes, rotations, system call failures and crashes, interleaved in all ways with the clean-up; all directories and configurations", "why_tests_cant": "Tests rotate a few files with a fake clock; the claim is about every failure and crash point and every interleaving with the background goroutine.", "anchors": ["log/rotate.go: Write, Rotate, Close, rotate, openNew, backupName, openExistingOrNew, millRunOnce, oldLogFiles, timeFromName, max, compressLogFile", "log/rotate_notwin.go: chown"]}
{"id": "C67", "title": "Subscribers learn the current servers and commands", "statement": "A client that has subscribed to a service in zookeeper and used its first discovery knows, whenever the watchers of the service have nothing left to do, exactly the servers registered now (unless there are none), whatever the order of registrations, subscriptions, interruptions of the connection, lost sessions without a change in between, and notifications; and the watchers always can get there. The same holds of commands. An Unsubscribe that has begun can return. Nobody is ever told of a list that was not registered for that service, and nobody is told after unsubscribing. (This assumes that calls of zookeeper succeed, that the node exists at first and is not deleted, that no change falls between a discovery and its use or into a lost session, and that nobody resubscribes before the old watcher has ended; each of these is exhibited as a way to lose updates for good. The registry can also hang for good: when the last listener leaves after a lost session, and when a cluster is destroyed while it is notified.)", "quantifier": "all interleavings of registrations, subscriptions, discoveries, notifications, interruptions, lost and new sessions, any number of services and listeners", "why_tests_cant": "Tests register a few servers with one watcher; the claim is about every interleaving of the watchers with callers, with zookeeper and with the connection.", "anchors": ["registry/zkRegistry.go: Subscribe, doSubscribe, Unsubscribe, Discover, SubscribeCommand, doSubscribeCommand, UnSubscribeCommand, DiscoverCommand, recoverSubscribe, handleNewSession", "cluster/motanCluster.go: Notify, Destroy, parseRegistry", "cluster/command.go: processRegister"]}
{"id": "C68", "title": "HTTP requests become calls of services exactly if the services exist", "statement": "After any history of requests and discoveries, an HTTP request (through the proxy of the agent, or as a Motan request to a domain) is made a call of a service exactly if its host has a domain, the locations of the domain give a service for its path, and that service is among those found by the last successful discovery of the domain's group, or, if the registry cannot discover services, among those configured. The client gets what the service answered; the request is sent by HTTP instead exactly if there was no endpoint, to the domain and path that it named; other failures give 502. With failover and no retries, a request is executed at most once. A request to the proxy itself that has no domain is rejected. A list of services that is an hour old is refreshed when it is used. The cluster of a service is made once, whatever the order of concurrent callers. (This fails: with retries, if the last attempt finds no endpoint after one was called, the request is sent again by HTTP; addresses of the proxy in capital letters or with a default domain are not rejected; two groups share an entry of the cache if registry and group joined by an underscore are equal; Destroy during a call leaves a cluster that is never destroyed; a client of the mesh that asks the HTTP service itself because the agent is not there loses the body of the answer, and panics if its reply is a byte slice or a string.)", "quantifier": "all histories of requests, discoveries (successful or not), clock readings and refreshes, all configurations, all responses; all interleavings of callers of a cluster", "why_tests_cant": "Tests send a few requests to one domain; the claim is about every history of the cache and every interleaving of callers.", "anchors": ["server/httpProxyServer.go: Open, doHTTPRpcProxy, doHTTPProxy", "cluster/httpCluster.go: CanServe, getMotanCluster, Destroy, Call", "core/motan.go: ServiceInGroup, getServices, refreshServices", "agent.go: httpCall, fillDefaultReqInfo, initHTTPClusters", "meshClient.go: BaseCall"]}
{"id": "C69", "title": "Consistent hashing keeps a key on one server", "statement": "With the consistent-hash load balancer, after any refreshes: the endpoints chosen from are those of the last list that was not empty; a key has a home among them, which is chosen whenever it is available, and an available one is chosen otherwise. Two clients with the same configuration that know the same addresses send a key to the same address, whatever they knew before, if the numbers of partitions and replicas are configured large enough. The number of partitions changes only if there are fewer than two for each endpoint. A call during a refresh gets an endpoint of the list used when it began or of a later one, and does not panic if no list has exactly one endpoint. (This fails: without configured partitions two clients with the same servers can disagree for ever because of what they knew before; a call panics if the number of endpoints falls to one at the same time; a request with a key panics if there are no endpoints.)", "quantifier": "all histories of refreshes (any sizes, failing or not), all keys, all availabilities, all interleavings of calls with the assignments of a refresh, all hashing libraries that give a key to a member", "why_tests_cant": "Tests refresh once and select; the claim is about all histories of refreshes of two clients and all interleavings.", "anchors": ["lb/consistentHashKeyLb.go: OnRefresh, Select, buildConsistent, buildConsistent0", "cluster/motanCluster.go: refresh"]}
{"id": "C70", "title": "Starting a server serves and registers every configured service", "statement": "When a server is started, in whatever order its services are taken: a configured service that has a registered implementation, known kinds of provider and server and a free address answers at the port or Unix socket of its configuration, under its path, by its implementation, and every registry it lists that is configured is told its path, group, protocol and port. Other services (without implementation, with a broken port, at other addresses, or sharing its address with the same protocol and serialization under another path) do not prevent that. Nothing answers and nothing is registered that is not a configured service with an implementation. If all services fit together, everything registered can be called where the registry says. The implementation of a service is the last object that the program registered under the name the service refers to (the name given, or that of the object's type); objects under names no service refers to are refused, and so is what is no pointer. (This fails: registering a nil pointer panics; a service whose port is taken by another process is registered all the same; so is the second of two services that write one port in two ways; of two services with one path on one port one answers for both; a service in front of a Unix socket is registered with port 0; an export text of three parts means the default port.)", "quantifier": "all configurations of services, all orders of exporting them, all sets of implementations, factories and registries, all sets of free addresses", "why_tests_cant": "Tests start one service on one port; the claim is about all combinations of services and all orders in which Go lists the map of services.", "anchors": ["server.go: MSContext.Start, RegisterService, export, canShareChannel", "server/server.go: DefaultExporter.Export, DefaultMessageHandler.AddProvider", "server/motanserver.go: MotanServer.Open", "core/motan.go: GetProvider, GetServer, GetRegistry"]}
{"id": "C71", "title": "The rate limits hold", "statement": "A filter with a rate limit for the service or for methods, called by any number of callers at any times: exactly the methods with a positive rate are limited, and the service if its rate is positive, with the configured room or else between 1000 and 5000 calls. While the switch stays on, no more calls of a limited service (or method) are passed on by any time than the room and what has come in since the start, and the tokens that come due in any period are at most a full bucket and what comes in during the period, rounded up. A call is refused only when the tokens promised since some time are a full bucket and all that will come in until the end of the wait. Without a limit, or with the switch off, a call is passed on at once. If nobody wakes up late, no call sleeps longer than the service's timeout and its own together. (This fails: a call that its method's limit refuses has used up a token of the service, so other methods are refused while the service has room; the two waits add up beyond the request's timeout; a misspelt timeout means no waiting at all.)", "quantifier": "all URLs, all rates and capacities, all histories of any number of concurrent calls, clock readings, sleeps and switch settings", "why_tests_cant": "Tests send a few calls one after the other; the bounds are about all interleavings of all numbers of callers over any time.", "anchors": ["filter/rateLimit.go: NewFilter, Filter, getKeyValue, getDefaultCapacity", "core/url.go: GetTimeDuration, GetMethodPositiveIntValue"]}
{"id": "C72", "title": "The built-in filters record every answer as the caller gets it and otherwise pass calls on", "statement": "Whatever built-in filters are configured, in whatever order they are written, for a provider, an endpoint or a cluster: setting them up does not panic; a call is passed on at most once (exactly once without rate limit and circuit breaker), changed in its attachments only and only if traced; the caller gets the callee's answer as it is, or an exception with code 400 and its request's id because a rate limit or circuit breaker refused it, gave up waiting, or counted the exception. Each metrics, access-log, trace and fail-fast filter configured records each answered call exactly once, with the answer the caller gets (refusals included), the time it took and the right role, application, service, method and peer; on a server the access-log line is written after the answer was sent. Every circuit-breaker setting in use is positive, percentages at most 100. Violated: with its default setting a circuit breaker turns an exception of the business logic into a failure of the service, which failover then repeats; a panic behind a trace filter without recording function is replaced by another; calls that panic are answered with code 500 but neither counted nor logged; the access log says success where the answer could not be converted; a panic behind a circuit breaker ends the process.", "quantifier": "all configurations of built-in filters (any names, order, repetition), all sorts that order by index, all requests, callees, verdicts of circuit breaker and rate limit, clocks and tracers", "why_tests_cant": "tests run single filters with one stub; order of equal indices, every combination of filters and every outcome of the callee cannot be enumerated", "anchors": ["filter/accessLog.go: AccessLogFilter.Filter, doAccessLog", "filter/metrics.go: MetricsFilter.Filter", "filter/clusterMetrics.go: ClusterMetricsFilter.Filter", "filter/tracing.go: TracingFilter.Filter", "filter/circuitBreaker.go: CircuitBreakerFilter.Filter, getConfigValue", "filter/clusterCircuitBreaker.go: ClusterCircuitBreakerFilter.Filter", "filter/filter.go: RegistDefaultFilters", "core/motan.go: RPCContext.OnFinish", "server/motanserver.go: processV2", "server/server.go: DefaultMessageHandler.Call", "cluster/motanCluster.go: MotanCluster.Call"]}
{"id": "C73", "title": "A client with direct addresses calls those servers and no others", "statement": "A registry of protocol direct whose address parameter is a comma-separated list gives exactly the servers named there, in order: host:port with any white space around host and port, unix://path as it is, pieces without a colon or with a port that is no number left out. Each is the client's own URL (protocol, service, parameters) at that address, in the registry's group if it has one; what is dialled is the text the user wrote. A registry with a host and port gives that server alone. For the variable MESH_DIRECT_RPC of any number of entries key>addresses or key>group@addresses: if one entry applies to the service (key x* to paths that begin with x, any other key to paths that end with it) a new cluster's load balancer has exactly the servers of that entry, one endpoint each, whatever the map order and shuffle, and no configured registry is used; if none applies the configured ones are. Violated: two entries apply (map order decides), a socket after a blank, IPv6 addresses, ports out of range, a socket with @ in its path.", "quantifier": "all lists of addresses with all paddings, all values of the variable made of well-formed entries, all services, all map orders and shuffles", "why_tests_cant": "the strings are unbounded and the order of the map is random per run; tests use a handful of literals", "anchors": ["registry/directRegistry.go: DirectRegistry.Discover, parseURLs", "core/util.go: GetDirectEnvRegistry, TrimSplit", "cluster/motanCluster.go: parseRegistry, parseFromEnvRegistry, Notify", "core/url.go: GetAddressStr, Copy"]}
{"id": "C74", "title": "A process and its local mesh agree about what is registered", "statement": "A process whose registry is the agent on its machine (protocol mesh) may call Register, UnRegister and Subscribe in any order, while requests to the agent and answers of the agent to Register and Subscribe get lost. After all calls that have returned, its registered services are exactly those whose last effective call was Register, and the agent has listed exactly the nodes of these services: its own address, the service, each group, and the registry the process named. A service whose Subscribe has returned is subscribed to by the agent in each group and stays so. Register and Subscribe return exactly when an answer is read or the service is already recorded; a registry the agent does not know leaves nothing recorded on either side. Every service is found at the agent's host and the port of the last readable answer of three, and a client calls that one server. Violated: the answer to UnRegister is lost, or the agent restarts without its records (registering again is then skipped for good); two servers of one service in one process (one node for the agent); no port told at the start (port 0 for good).", "quantifier": "all sequences of calls of a process about services that are distinct nodes for the agent, all patterns of lost requests and answers, all agent settings that leave identities alone", "why_tests_cant": "losses can strike any request; the two sides' states depend on the whole history", "anchors": ["registry/meshRegistry.go: Initialize, Subscribe, Discover, Register, UnRegister, initRegistryRequest, GetRegisteredServices", "dynamicConfig.go: register, unregister, subscribe, getURLs"]}
{"id": "C75", "title": "Reports to graphite tell every metric once, in lines that can be read back", "statement": "A report to a graphite server tells each metric with a three-part name (role, application, item) of every reporting snapshot exactly once and nothing else: a counter's sum, a gauge's last value, a histogram's six percentiles and its mean, labelled with escaped group, host, service and item. All lines of a metric are in one packet, in the snapshot's order, and a packet has at most 5120 bytes unless one metric alone has more. Whatever the names of applications, groups, services and methods are, the lines of a packet can be told from its text with all their fields; so can those of the metrics of clusters. The numbers reported for a counter add up to what was submitted but for what is on its way, not yet in a snapshot, or was dropped because the bus was full. A packet that could not be written is lost, the others are sent if a new connection can be made. The host is the address of the first connection; servers with distinct non-empty names each get the reports; what the filters record of calls is reported. Violated: metrics recorded under one name (AddCounter, AddGauge, AddHistograms) are never reported; hosts with IPv6 addresses share names; of two servers with one name only the last gets reports.", "quantifier": "all snapshots, all names, all orders of the percentiles, all histories of the metrics pipeline, all outcomes of writing", "why_tests_cant": "names and metric sets are unbounded, packets depend on the sum of lengths, and the order of a map range is random per run", "anchors": ["metrics/graphite.go: GenGraphiteMessages, graphite.Write, newGraphite", "metrics/metrics.go: AddWriter, reporter.sink, StatItem snapshots, Escape"]}
{"id": "C76", "title": "The serving status, the registries and the failback agree", "statement": "When all services are switched on (/200) or off (/503), every service of every registry is told so; later commands, in particular those the failback repeats, never go against the last switch; a service whose last command succeeded is listed exactly if it should be and is left alone by the failback. A server's status, and an agent's once the call has ended if calls do not overlap, says what the last switch said. Then one round of the failback whose commands succeed leaves no failed service, whatever services come and go meanwhile, and the summary of the status page says that all went well exactly if every service to be checked is in order. If two opposite calls to an agent overlap, the status can say listed while everything is withdrawn; and a service registered after the switch stays unlisted until the next one. All this needs registries that tell the status of each service, and none of the registries of the library does: with those, a registration that failed is never repeated by the failback, and the status page always says that all went well and lists nothing.", "quantifier": "all sets of registries and services, all results of the commands, all orders of the ranges and all interleavings of switches, status changes, registrations and failback steps", "why_tests_cant": "a test switches once with a registry that succeeds; the claims are about every failure pattern and every interleaving of management calls, the failback goroutine and registrations", "anchors": ["agent.go: SetAllServicesAvailable, SetAllServicesUnavailable, availableAllServices, unavailableAllServices, startRegistryFailback, GetRegistryStatus", "server.go: ServicesAvailable, ServicesUnavailable, startRegistryFailback", "manageHandler.go: StatusHandler.ServeHTTP, getRegistryStatus"]}
{"id": "C77", "title": "The CGI provider hands a request to a program and its answer back", "statement": "The environment of the FastCGI request holds the settings of the service, every attachment under its name with MOTAN_ before it, the query string of a GET or type and length of the body of a POST, and nothing else; no attachment can pass for a setting. A program that reads the query or the body gets the request identifier and exactly the entries of the argument map. From an answer with header lines, an empty line and a body, the caller gets the body byte by byte and for each name what the last line about it says, without surrounding white space. Unreadable answers are reported as 502, failed exchanges as 503. The provider panics exactly when there is no argument to hand on or when the first line begins with Status: and has no space; and the status of the program is lost: a failure (500) looks exactly like a success to the caller.", "quantifier": "all settings, requests, attachments, argument maps and all bytes a program can write", "why_tests_cant": "a test writes one answer; the claims are about every body, every header and every byte sequence", "anchors": ["provider/cgiProvider.go: CgiProvider.Call, ParseFastCgiResponse", "provider/httpProvider.go: buildQueryStr"]}
{"id": "C78", "title": "The httpx provider and the RPC door of the HTTP proxy pass on what they are given", "statement": "A call of the httpx provider sends at most one HTTP request. Its headers are exactly the attachments (with M_ turned into MOTAN-, except host), the type of a form for a POST, and the caller's address as X-Forwarded-For unless an attachment is that header; a server reads from its query (GET) or its body (POST) the request identifier and exactly the entries of the argument map; method and URL follow the attachment, the configuration of the method, the parameters of the service and the default, in that order. The body of any answer is the value, every other outcome an exception, or a panic when there is no argument. A request to /proxy_to_rpc without service, method or string argument is refused with 400 before anything is called; any other becomes exactly one call with the given service, method and argument and with the non-empty headers as attachments. The client is answered 200 exactly when the call gave bytes, then with these bytes and the attachments as headers; 502 with the message for an exception; 502 for anything else. So three things a user would not expect hold: the status of the upstream is lost by httpx, a header M_g, M_p or M_m replaces what the form says, and a successful call that returns nothing is answered 502.", "quantifier": "all settings, requests, forms, headers, argument maps, and all behaviours of the upstream and of the mesh", "why_tests_cant": "tests send a handful of requests; the claims are about every header, every map and every answer", "anchors": ["provider/httpxProvider.go: HTTPXProvider.Call, buildReqURLX", "server/httpProxyServer.go: doRPC", "provider/httpProvider.go: buildQueryStr"]}
{"id": "C79", "title": "Access log entries are written once, unchanged and in order, or counted", "statement": "Every entry handed to the access logger is, at any moment, written, counted as discarded, or still under way with the content it was logged with, although entries are reused. If asynchronous logging is switched on at most once, then once all goroutines are at rest every entry has been written exactly once or is in the count of discarded entries, and what went through the channel is written in the order it was accepted. Without asynchronous logging nothing is discarded. The caller never waits: it is done after at most three steps of its own. An entry is only discarded when the channel is full or does not exist yet, and the channel never holds more than its configured size. Entries are shown or not as the switch was last set. A line has the fields of its entry in a fixed order, a structured line has each under its name; the lines of the file tell the entries apart and their order.", "quantifier": "every schedule of callers, writers, switches, sampler and pool; every buffer size; every entry", "why_tests_cant": "Loss, reuse before writing and reordering depend on how callers, the writing goroutine and the switches interleave.", "anchors": ["log/log.go:AccessLog", "log/log.go:doAccessLog", "log/log.go:SetAsync", "log/log.go:SetAccessLogAvailable", "log/bytes.go:WriteBoolString", "filter/accessLog.go:doAccessLog"]}
{"id": "C80", "title": "The agent starts with the parameters its command line, environment and configuration give", "statement": "For every port, the pid file and the runtime directory, a value on the command line comes before one in the configuration, and that before the default; for the management port the environment comes between the two. For the log's settings the configuration comes before the command line. The agent fails to start exactly if a setting it looks at has the wrong type or the runtime directory cannot be made. The agent's own URL always has a group and an application, the same one, and a path. The management server listens on the first free port of a range, and the port the agent reports is the one it listens on. Typed access to the configuration gives the value under the key if it has that type, otherwise the default. The name of a log level means that level in any spelling.", "quantifier": "every command line, environment, motan-agent section, and every outcome of listening and making directories", "why_tests_cant": "The parameters come from three sources with many combinations of presence, type and emptiness.", "anchors": ["agent.go:initParam", "agent.go:initLog", "agent.go:initAgentURL", "agent.go:startMServer", "config/config.go:ParseBool", "config/config.go:Int", "config/config.go:GetStringWithDefault", "log/level.go:Set"]}
{"id": "C81", "title": "The management interface does what it is told, for those who may", "statement": "A path is answered by the handler the environment chose, else by one given to the agent, else by the default one, whatever the order of registration; unknown paths by the status handler. A request without permission changes nothing. A switcher shows the value last given by an accepted request, requests cannot make switchers, and values that are no truth values change nothing. The log configuration shows the last level, access and metrics setting that was accepted; a request sets one of them, the level before the access log before the metrics log. The agent's own debugging pages are shown exactly when the last accepted switch was on. A meta entry shows the first value of the last update that had one, or is empty after it was deleted. The filter rules shown are those of the last request that could be read, and every cluster that existed then applies them. Three things a user would not expect hold: the pages below /debug/pprof/ that package net/http/pprof answers need no permission and no switch; rules that fail the check are stored and applied, with a failure and a success in one answer; a cluster created after the rules were set does not apply them.", "quantifier": "every history of requests, registrations of switchers and new clusters, every order of registering the handlers, every form", "why_tests_cant": "What is shown depends on the whole history of requests, and which handler answers on every registration before; tests send one request to one handler.", "anchors": ["manageHandler.go:SwitcherHandler", "manageHandler.go:LogHandler", "manageHandler.go:DebugHandler", "manageHandler.go:MetaInfo", "manageHandler.go:RefersFilterHandler", "agent.go:startMServer", "agent.go:mhandle", "default.go:GetDefaultManageHandlers"]}
{"id": "C82", "title": "Tracing records the requests it is asked for and gives each record once", "statement": "A custom trace wants exactly the requests whose address begins as asked, that go to the group and path asked for, and whose draw is below the ratio. Only requests that the policy in force wanted are recorded, each at the end of the records held, unless more than the configured number is held. No record is given out twice, and each list given out is in the order of recording and never longer than the configured number plus one. If no request is just being recorded whenever records are taken, nothing is lost: the lists given out and what is still held are exactly the records made, in order. Requests to trace that are properly nested leave the policy as it was, and while one waits its own policy is in force. The duration of a span counts from the latest span before at the same address, else from the latest without address; for responses from the span before; the total is request, remote and response time together. Two things a user would not expect hold: overlapping requests to trace can leave tracing on for ever, and a record made just when records are taken is lost.", "quantifier": "every schedule of requests, of requests to trace and of changes of the policy, every draw, every list of spans", "why_tests_cant": "Policy and records are shared variables without a lock; what is lost or left over depends on how requests interleave.", "anchors": ["manageHandler.go:MeshTrace", "manageHandler.go:CustomTrace", "manageHandler.go:formatTc", "manageHandler.go:processReqSpan", "manageHandler.go:processResSpan", "core/debug.go:newTrace", "core/debug.go:GetTraceContexts", "core/debug.go:TracePolicy"]}
{"id": "C83", "title": "A cluster subscribes to a group that fits the configured one and, if there is such a group, has nodes", "statement": "A group without the placeholder ${idc} is subscribed to as configured. Otherwise the placeholder is filled with the name of the data centre as given, in small letters or in capitals, and the first of these that the registry has nodes for (and lists, if it can list groups) is taken. If none is, and the registry lists groups, a group of the list that matches the configured one and has nodes is taken, if there is one; of those that could be measured the one with the least figure, which is the mean of the round-trip times without a least and a greatest one. If no matching group has nodes, the last matching one is taken, and without any the configured one stays. With several registries each configured one is subscribed to, in order, and an unknown name is reported. The list of groups is what the registry answered when last asked with success, and it is asked again after an hour. Two findings: a group whose figure is zero is passed over, and a group picked with one registry is used for all later ones even if they have no nodes for it.", "quantifier": "every configured group, data centre name, registry, list of groups, outcome of measurements and order of visiting the maps; every history of calls for the list of groups", "why_tests_cant": "The choice depends on maps visited in random order and on measured times; tests use one fixed registry and no measurement.", "anchors": ["cluster/motanCluster.go:getSubscribeGroup", "cluster/motanCluster.go:getBestGroup", "cluster/motanCluster.go:parseRegistry", "core/motan.go:GetAllGroups", "core/motan.go:registryGroupCacheInfo"]}
{"id": "C84", "title": "Measuring a node counts its replies, keeps to the count and the time, and ends cleanly", "statement": "With a positive count a pinger sends at least one and at most so many echo requests. The round-trip times are those of the replies with its identifier among the packets read, in the order of reading, never more than the count. Ping succeeds only when all replies have come (or reading failed), reports a time-out only after the time and another error only after a packet that cannot be parsed; when it returns, the goroutine it started has ended. As long as reading does not fail nothing panics, and Ping can return unless it waits for a goroutine that cannot put its packet into the full channel. Findings: in that case it waits for ever; a reading error at the end of the time closes a channel twice and panics; a reply counts whoever sent it; and one packet that cannot be parsed, from anyone, ends the measurement.", "quantifier": "every schedule of the two goroutines, every sequence of packets, reading errors and times", "why_tests_cant": "The outcome depends on how the reading goroutine, the tickers and the loop interleave; a test pings one host once.", "anchors": ["core/ping.go:Ping", "core/ping.go:recvICMP", "core/ping.go:processPacket", "core/ping.go:sendICMP"]}
{"id": "C85", "title": "Filters get a copy of what is logged and never hold up the program", "statement": "A filter added with AddAsyncFilter under one name, and not replaced there, receives on its channel what waited to be handed out when it was added and what was logged afterwards: each item at most once, unaltered and in the order of the log calls. Nothing is missing if fewer than 5000 items waited at each log call and the filter's channel was open with room (or a reader waiting) whenever it was offered an item. Whether a filter gets an item depends on its own channel only; a filter that is full, closed or never read neither delays a log call, nor the handing out, nor takes anything from other filters. A filter replaced under its only name gets nothing more. An item carries the level, the entry point and the text of its call: formatted, printed, or the JSON of an access log entry.", "quantifier": "every number and size of filter channels, every schedule of log calls, additions, hand-outs in any order of the filters, readers and closings, every format and every arguments", "why_tests_cant": "The guarantee is about all interleavings of loggers, one distributing goroutine and independent readers; a test sees a few of them with channels that seldom fill.", "anchors": ["log/filter.go AddAsyncFilter startAsyncFilterConsumer callAsyncFilter doAsyncFilters getLogContent", "log/log.go Infoln Infof Warningln Warningf Errorln Errorf Fatalln Fatalf AccessLog MetricsLog"]}
{"id": "C86", "title": "Commands to the agent reach every cluster, once per change", "statement": "A command notified to the agent that equals the one in force does nothing. A new one that no command handler takes is handed, unchanged and once, to every registry of every cluster that takes commands, and is then in force; over any sequence of notifications the clusters are told exactly the changes, in order. A command some handler takes is told to no cluster; the first handler to take it is given the command, later ones what the earlier said is in force, and what the last said is in force afterwards. (A panic in one registry loses the command for those after it; a change arriving while the first command is being read is overwritten by the older one.)", "quantifier": "every sequence of notifications, every list of handlers and of clusters' registries", "why_tests_cant": "Needs every history of notifications and every combination of handlers; the repository has a handful of fixed commands.", "anchors": ["agent.go AgentListener.NotifyCommand registerAgent RegisterCommandHandler"]}
{"id": "C87", "title": "The configuration read at the start and at a hot reload", "statement": "A configuration the embedding program gives is used whatever the flags and files are. Otherwise the file is the one given, else that of the flag -c, else ./ if there is a pool and ./motan.yaml if not; a plain file is read as it is, a directory for the application and pool, which are the program's own, else those of the flags. An agent refuses to start exactly if none is given and the chosen file is missing, unreadable, or a directory without application and pool. A hot reload reads the configuration as a start with the agent's file does and then serves the references in it. (A hot reload that cannot read it destroys every cluster without a dynamic subscription; one of an agent started with a given configuration does not use that configuration.)", "quantifier": "every combination of flags, given files and configurations, every state of the file system, every reachable state of the agent's clusters", "why_tests_cant": "The outcome depends on the environment and on the whole history of the clusters; the tests start from one file that exists.", "anchors": ["core/globalContext.go Context.Initialize", "agent.go StartMotanAgentFromConfig reloadClusters", "manageHandler.go HotReload.ServeHTTP"]}
{"id": "C88", "title": "Client calls that do not wait", "statement": "A client's request names its service and method and carries exactly version, module, application (its own, else that of the client section), group and path. A call gives an error exactly if the answer has an exception, with its message. However calls that do not wait (Go), answers and receivers interleave, starting one never waits; its result arrives at most once, only on its own channel, after the cluster answered, with the error of its own answer; a result that was sent is never lost; without a given channel the sender never waits, and with one it goes on once the receiver receives. (A given channel without buffer is replaced, so the caller's never gets the result.)", "quantifier": "every number of calls, every sharing of channels, every room in them, every interleaving of calls, answers, sends and receives, every URL", "why_tests_cant": "The result depends on the interleaving of any number of goroutines; a test sees one order.", "anchors": ["client.go Client.BuildRequest Client.BaseCall Client.BaseGo"]}
{"id": "C89", "title": "Snapshot files of registries", "statement": "After a tick of the snapshot writer, the file of a service holds the nodes each registry found last for it, one registry after another, if the file could be written; the file of a key for which nothing was ever found is not touched. Services whose paths have no underscore never share a file, and then the file shows what was found for this service. (With underscores two services of one registry can share a key, and only the one saved last is written.)", "quantifier": "every history of finds by any number of registries and ticks, every order in which a tick sees the registries, every outcome of the writes", "why_tests_cant": "Holds after any history and for any iteration order of the maps; a test has one history and one order.", "anchors": ["registry/registry.go SaveSnapshot flushSnapshot GetNodeKey", "registry/zkRegistry.go ZkRegistry.saveSnapshot"]}
{"id": "C90", "title": "Dynamic metadata of endpoints", "statement": "Metadata given for an address was the answer of an endpoint there to a question, at most the configured number of seconds before. Until that time is over no further question is put to the address, and callers get metadata no older than that answer. An endpoint that says it has no such service is not asked for 30 seconds. Nothing else keeps an available endpoint whose URL supports it from being asked: errors are not remembered. The environment metadata of a process are its variables with the prefix. (Marks go by the address, so a caller that cannot ask silences those that can; values with an equals sign are cut; a number of seconds not written as a text is ignored.)", "quantifier": "every history of callers, answers and waiting times, any number of questions under way at once; every environment and configuration", "why_tests_cant": "Questions run at once and finish in any order, and the caches expire at any moment between them.", "anchors": ["meta/meta.go GetEpDynamicMeta getRemoteDynamicMeta isSupport Initialize GetMergedMeta", "provider/metaProvider.go MetaProvider.Call"]}
{"id": "C91", "title": "Settings of connections, reverse proxies and clients of an agent", "statement": "Each setting of an endpoint is the value of its URL parameter if that is a proper one, else the documented default, and the endpoint dials the host and port (or socket) of its URL. An endpoint goes on trying to connect until it succeeds. A service with proxy=protocol:port is passed on to that port (on this machine, or at proxy.host) with that protocol; its requests arrive unchanged but for a note of the caller's address; its endpoint is never disabled by errors unless the service sets a threshold; a service registered with an agent at run time gets its requests at the port it registered with; one that cannot be set up refuses calls. A client of an agent never gives the agent up, and its timeout is the one it was given in whole milliseconds. (Four exceptions are exhibited: intervals of zero, a proxy with three parts, destroying what was not set up, and timeouts below a millisecond.)", "quantifier": "every URL whose caches agree with it, every sequence of outcomes of connecting, every request, every client configuration", "why_tests_cant": "Ranges over all parameter values and all outcomes of connecting; a test has a few of each.", "anchors": ["endpoint/motanCommonEndpoint.go Initialize initChannelPoolWithRetry keepalive", "provider/motanProvider.go MotanProvider.Initialize MotanProvider.Call", "core/util.go ParseExportInfo", "meshClient.go MeshClient.Initialize", "core/url.go GetTimeDuration"]}
{"id": "C92", "title": "Operations that run at the same time all finish", "statement": "Take any operations of an agent, with any servers, registries, groups and listeners: changes of servers and commands told by the registry, agent commands, clusters made and destroyed, reloads, registrations and subscriptions at run time, new sessions, calls, HTTP clusters, refreshes of weights, snapshots, status requests, switchers. Run them at the same time in any interleaving. If no cluster is destroyed by one while another tells it something, no subscription is given up by one while another handles an event of its path, and no switcher listener watches a switcher, then no operation waits for ever: some operation can always go on, every interleaving ends, and all operations are done then. (Without these conditions it is not so: destroying a cluster while an agent command reaches it, a command that gives up a group whose servers change, a reload that destroys a cluster, and a listener that watches its own switcher are shown to wait for ever, and to take others with them.)", "quantifier": "every list of operations that do not cross, every interleaving", "why_tests_cant": "A deadlock needs one interleaving out of exponentially many; tests run a handful of them, and the operations come from different goroutines of different packages.", "anchors": ["cluster/command.go getResultWithCommand processCommand NotifyCommand clear", "cluster/motanCluster.go Notify NotifyAgentCommand Destroy GetRuntimeInfo", "registry/zkRegistry.go Subscribe Unsubscribe SubscribeCommand handleNewSession", "lb/lb.go OnRefresh", "lb/weightedEpRefresher.go", "agent.go reloadClusters", "dynamicConfig.go", "cluster/httpCluster.go", "core/switcher.go"]}
{"id": "C93", "title": "An nginx configuration is translated as it is written", "statement": "Take any nginx configuration of properly written directives: words plain or in double quotes, with escapes and variables, any white space and comments between them, blocks in blocks. The translation tool reads exactly the directives that are written. Every location that is not inside another becomes, in the order of the file, a location of an agent with the same kind (exact, prefix, expression, expression without case), the same argument, the server of its last http proxy_pass and its rewriting rules in order; a location without a server is left out. An agent that is given what is printed has the same locations, so it sends a request where the nginx configuration sends it. A rewrite applies to every path its expression matches, inside an if on the address of the request only when the condition holds. Violated among others: an if on anything else is left out, with the rewriting in it. A block that is not closed or closed twice is an error. No file makes the parser panic.", "quantifier": "All configurations, spacings, comments, quotes, escapes and nestings; all files for the absence of panics; all paths.", "why_tests_cant": "Tests of the tool read one sample file; a byte-by-byte reader with seven flags has more states than samples can visit.", "anchors": ["tools/nginx/parser.go:Parser.readToken", "tools/nginx/parser.go:Parser.parseFromStat", "tools/nginx/parser.go:visitDirectives", "tools/nginx/parser.go:visitLocation", "http/httpProxy.go:NewLocationMatcherFromContext"]}
{"id": "C94", "title": "Goroutines that use the same object do not race for its memory", "statement": "String maps, copy-on-write maps, the table of switchers, the status samplers, the counters of backup requests, the selector and the nodes of the weighted round robin, the services of an http cluster, the subscriptions of commands, the nodes of a cluster by registry, the statistics and their snapshots, the nodes to be saved, mesh registries, what is registered through the manage port, the state of exports, the requests that wait on a connection, the state of an endpoint, the registries in use and the records may be used by any number of goroutines at the same time: of two accesses to the same memory, one of them a write, the first happens before the second, because a lock is given back and taken in between, or both are atomic. Where a lock guards the memory, nobody else touches it during a section, so that each operation takes effect at once. For the other shared memory the opposite is shown: a switcher's value, the pointer to attachments that are read by name, traces that are looked at, dynamic weights, the nodes of a plain load balancer and of a cluster, traffic control commands, ZooKeeper's tables and the parameters of subscribed services, the providers of a server, the channels of an endpoint, the status of an agent are read by one goroutine while another one writes them.", "quantifier": "All executions of any number of goroutines, each using the object for any length of time in any order of operations, with any branches taken and any interleaving that the locks admit.", "why_tests_cant": "A race shows only in some schedules; the race detector sees only the schedules of a test, and a test with few goroutines seldom meets the bad one.", "anchors": ["core/map.go StringMap CopyOnWriteMap", "core/switcher.go SwitcherManager Switcher", "core/debug.go TraceContext", "core/motan.go DefaultExtensionFactory CircularRecorder", "metrics/metrics.go", "metrics/sampler/sampler.go", "log/filter.go", "ha/backupRequestHA.go", "lb/weightRoundRobinLb.go", "lb/weightedEpRefresher.go", "lb/lb.go", "cluster/motanCluster.go", "cluster/httpCluster.go", "cluster/command.go CommandRegistryWrapper", "registry/registry.go", "registry/zkRegistry.go", "registry/meshRegistry.go", "server/server.go DefaultExporter DefaultMessageHandler", "endpoint/motanCommonEndpoint.go", "dynamicConfig.go", "manageHandler.go StatusHandler"]}
{"id": "C95", "title": "An extension is found under the name a configuration asks for, and a registry is shared by all who ask for it", "statement": "Whatever was registered before and in whichever order, a look-up gives the extension registered last under the name that the URL asks for, and nothing if there is none: the strategy and the load balance that are named, failover and random if none is; the endpoint and the server of the URL's protocol, motan2 for a server without protocol; the provider that is named, else that of the protocol the URL is a proxy for, else the default one; filters, message handlers and serializations by name with blanks around it ignored, serializations also by number. A registry is made by the first request of its identity that finds its type, for that request's URL, and every later request of the same identity gets that same registry; different identities never share one. Of the serializations shipped, the one found for the number in a message is the one that writes this number: 1, 5, 6 and 8. A cluster with backup requests is given the metrics filter, which backup requests need, besides the filters configured.", "quantifier": "All sequences of registrations and look-ups, all names, numbers and URLs.", "why_tests_cant": "Extensions are registered by applications in any order and under any names; a test registers a few and never asks in all orders, with defaults replaced or with registries asked for before their type is known.", "anchors": ["core/motan.go DefaultExtensionFactory", "default.go AddDefaultExt", "core/url.go GetIdentity", "ha/backupRequestHA.go Initialize"]}
{"id": "C96", "title": "The status page shows the calls of the last period", "statement": "The status page of an agent lists, of the services it exports, those with a finished period of statistics, and for each of them the methods called in the last period. The calls shown for a method are all those that were counted for it in that period, whatever the role and the application they were counted under, each once; the total is the sum of all the calls shown.", "quantifier": "All histories of calls, of processing by any number of workers and of snapshots; all exported services; all orders in which maps are visited.", "why_tests_cant": "What is shown depends on the keys under which calls were counted, on the schedule of the workers and on when periods end; tests look at one service with one method.", "anchors": ["manageHandler.go StatusHandler getStatus", "metrics/metrics.go GetStatItem ReadonlyStatItem", "filter/metrics.go addMetricWithKeys"]}
{"id": "C97", "title": "Logs are rotated after each full hour, once", "statement": "With rotation per hour, the log file is moved aside after each full hour of the local time: as soon as the goroutine that does so goes on after a full hour, it begins a rotation; whenever it sleeps, every full hour since it started was followed by a rotation; no two rotations are for the same hour. This holds as long as nobody sets the clock and the clock is never read at a full hour to the nanosecond. Even if the clock is set, no rotation begins before the full hour it is for. (If the clock is set back by the least amount, the next rotation comes up to an hour late.)", "quantifier": "All histories of passing time, of settings of the clock and of delays of the goroutine, in every fixed time zone.", "why_tests_cant": "Tests cannot wait for hours, and the outcome depends on how late the goroutine wakes up and on when the clock is set.", "anchors": ["log/rotate.go RotateWriter rotatePerHour mill"]}
{"id": "C98", "title": "The agent's start waits for its clusters within bounds, and what is told to all clusters reaches those that serve", "statement": "At its start the agent builds the clusters of all references at once. It goes on only if the configured time is over or every cluster has been built or has failed, and it does go on then, whatever became of the single ones. In every order of events, each reference whose cluster was built has exactly one, and one that fails hinders no other. Commands for the agent, filters of servers and the information pages go by a second table: if the references differ in group, version, protocol or service, then after the start, after later subscriptions and after a reload they reach exactly the clusters that requests are sent to; after the start each once, and the page of references has one entry per reference, with the status of such a cluster. Violated: references by cedrus and motan2 to one service and group, or with underscores in names, share an entry, so that one of them is never told anything; a reload that comes into the last step of a subscription leaves a destroyed cluster in the second table; once the time is over the waiting goroutine is never released; until both groups of a service are built, requests for the one are sent to the other; which of two fitting references is used depends on which was built first.", "quantifier": "All references, all orders in which clusters are built, fail and are stored, all moments at which the time is over, all reloads.", "why_tests_cant": "The outcome depends on how goroutines that talk to registries interleave and on which of them fail or are late; a test sees one order.", "anchors": ["agent.go initClusters initCluster reloadClusters getClusterKey", "manageHandler.go InfoHandler.getReferService RefersFilterHandler", "agent.go AgentListener.NotifyCommand"]}
{"id": "C99", "title": "A request that a server has read is handled, and once", "statement": "The motan2 requests of all connections are handled by one pool of workers. At every time each request that was read is at exactly one place: it is being handled, its connection waits with it for a worker, it has been handled, or it was dropped; a connection that waits reads nothing meanwhile. If the requests come from at most 1024 connections none is ever dropped, whatever the size of the pool, however long requests take and however the size is changed, so that once nothing is under way the requests handled are exactly those read, each once. Never more requests are handled at a time than the largest size the pool has had. While a worker is free, a request read is taken up at once, and so is one that waits as soon as it is woken; a size that is not positive is ignored. Violated: with 1025 connections, whatever the size of the pool, a request can be dropped; the server says nothing of it and its caller is not answered.", "quantifier": "All histories of requests read, handled, waiting and woken, all numbers of connections and requests, all changes of the size.", "why_tests_cant": "The number of requests, connections and their interleavings are unbounded; a loss occurs only when every worker is busy and more than a thousand connections wait.", "anchors": ["server/motanserver.go processPool SetProcessPoolSize MotanServer.handleConn", "agent.go Agent.initParam processPoolSize"]}
{"id": "C100", "title": "A server takes connections until it is destroyed, and then no more", "statement": "As long as nobody calls Destroy, the server takes every connection that arrives and hands it to a goroutine of its own, however often the system refuses one in between. Once a call of Destroy has closed the listener no connection is taken. Of all calls of Destroy, at whatever times, at most one succeeds, the others fail and none waits for ever. When one has succeeded the loop returns after its next failed Accept, and it returns in no other case. Connections taken before are left to themselves: Destroy and the end of the loop close none of them. The number of connections shown is always that of the connections whose goroutines have begun and not left, in whatever way they end. Violated: between the closing of the listener and the message to the loop, and while the system refuses connections, the loop does not wait but fails and logs over and over.", "quantifier": "All histories of connections, failures, calls of Destroy and the steps between them.", "why_tests_cant": "The steps of Destroy and of the loop interleave in ways a test cannot choose, and the number of calls and connections is unbounded.", "anchors": ["server/motanserver.go MotanServer.run MotanServer.Destroy MotanServer.handleConn incrConnections decrConnections getConnections"]}
{"id": "C101", "title": "The administrative pages answer what they are asked", "statement": "A request to register, unregister or subscribe is answered 200 exactly if its body parses and it names a configured registry or no group at all, and then its calls have been made; otherwise it is answered 400 and changes nothing. The list and the information page answer 200 with the nodes and the port and change nothing; every other URI under the same handler is answered 404. The status is repeated in the body. The runtime page has its result, the kind of instance and, of the keys asked for (all six if none is named), exactly those that exist, each with what that part of the agent says, or an empty object, in whatever order and however often they are named; it is given unless a part asked for panics (C104 says when). Violated: any query after the URI gives 404; the answer is 200 and ok although the agent refused to register; a key after a comma and a space is silently left out.", "quantifier": "All request URIs, bodies, environments, tables of nodes, lists of keys and states of the agent.", "why_tests_cant": "Inputs are unbounded strings and documents; the window at the start depends on timing.", "anchors": ["dynamicConfig.go DynamicConfigurerHandler.ServeHTTP register unregister subscribe list info writeHandlerResponse", "manageHandler.go RuntimeHandler.ServeHTTP SetAgent addInfos defaultKeys", "agent.go Agent.startAgent Agent.StartMotanAgentFromConfig"]}
{"id": "C102", "title": "Services in the same process and gRPC services are called as asked", "statement": "An endpoint for a service in the same process takes the object that the program registered last under its path when the endpoint was made, and keeps it. After any history of registrations and initializations, a call runs the object's method of that name (its first letter made a capital) with the caller's own arguments and answers its first result under the id of the request, provided no endpoint is just initializing the object; it never runs anything else; a method or object that is not there is answered with an exception. A call over gRPC invokes once the method of the request's service with the bytes of the first argument, with all attachments as metadata under their names in small letters; the caller gets the server's message as it is, also through an agent, or an exception with its code and text, under the id of the request; an argument that is no bytes is refused and nothing is sent. Violated: the reply of a client is not filled in, although the call succeeds; an object registered after the endpoint was made is never found; while a second endpoint of the same path is made, calls of the first do not find their method; the object has the URL of the endpoint made last; failures of the gRPC server are retried exactly if their code is not 2; a gRPC call without arguments panics.", "quantifier": "All histories of registrations, endpoints and steps of initializations; all services, methods, arguments; all gRPC servers, requests and attachments.", "why_tests_cant": "The interleaving of an initialization with calls and the order of registrations cannot be enumerated.", "anchors": ["endpoint/localEndpoint.go LocalEndpoint.Initialize Call", "endpoint/grpcEndpoint.go GrpcEndPoint.Call agentCodec", "core/motan.go RegistLocalProvider GetLocalProvider", "provider/provider.go DefaultProvider.Initialize Call", "client.go Client.BaseCall"]}
{"id": "C103", "title": "The zookeeper nodes above a registration are created, and commands are found by group", "statement": "Before a service or a client is registered in zookeeper, the nodes on the way to it that are missing are created, and no others, provided none of them is refused by the server. A command node is created only if the node of its group (or agent application) is there. Services of one group read one command, services of different groups different ones, at /motan/GROUP/command, and an agent that of its application, at /motan/agent/APPLICATION/command; the command read is the text of that node, without the header that Java clients write, and empty if there is no such node or the registry is not connected. Violated: if a missing node on the way is refused, for want of permission say, the creation calls itself without end and the process dies of its stack.", "quantifier": "All paths, all trees of nodes, all sets of refused paths, all node contents.", "why_tests_cant": "Which of the nodes on the way exist and which are refused varies without bound, and the endless recursion cannot be observed by a test that ends.", "anchors": ["registry/zkRegistry.go createPersistent createNode doSubscribeCommand DiscoverCommand getNodeInfo toCommandPath toAgentCommandPath"]}
{"id": "C104", "title": "The runtime page shows what the agent has, unless a service cannot be passed on", "statement": "The page of runtime information has, of the parts asked for: every cluster with its name, URL, filters in order, registries by identity and each of its endpoints exactly once, numbered, among the available ones if it is available and among the others if not; every exported service with its URL, its availability, its filters and what its provider says; the agent's own server, the HTTP proxy and the server of every other port with the services it serves; the HTTP clusters by domain; the registries of the extension factory; start time and load. It is answered with an error instead exactly if the servers are asked for while they are not set, or if a service is shown whose requests are to be passed on to a motan server and that has no endpoint for it. Violated: one service with a wrong proxy setting takes the whole page away; the page fails while the agent starts; of several registries of one kind that a cluster has by their addresses only the last is shown.", "quantifier": "All agents: clusters, endpoints, services, filters, servers; all lists of keys; all proxy settings.", "why_tests_cant": "The page depends on everything the agent has; a service that could not be set up is rare in tests and fails the page for all others.", "anchors": ["manageHandler.go RuntimeHandler getClusterInfo getExporterInfo getServersInfo", "cluster/motanCluster.go GetRuntimeInfo", "server/server.go DefaultExporter.GetRuntimeInfo FilterProviderWrapper.GetRuntimeInfo", "provider/motanProvider.go GetRuntimeInfo Initialize"]}
{"id": "C105", "title": "A file has one context for clients and one for servers, made of what it says the first time", "statement": "Asking for the client context of a file gives nil if there is no context yet and the file cannot be read or parsed, panics if there is none yet and a section, an option of the log or a switcher is not of its type, and otherwise gives the context of the file: it is made by the first call that can make it, of what the file says then, and every later call gives the same one whatever the file says then. A failed call is forgotten and the next tries again. The same holds for servers as long as the file can be read when it is asked for. Different files have different contexts, and a client and a server never share one. There is no client before the context is started; after that there is one for each reference of the configuration and for nothing else, for this reference and with a new cluster that no other client has; the clients of other contexts stay as they are. A new context gives its switchers the values of its file, but those that have a value already keep it. Violated: a server whose context exists is given nil when the file cannot be read at the moment; placeholders, which an agent replaces by the parameters of its pool, stay as they are for clients and servers; starting a context again makes further clusters and leaves the first ones behind, without a client; one switcher of the wrong type makes the call panic in one section and takes all others away in another.", "quantifier": "All histories of calls for client and server contexts and of starts, all contents of the files at the time of each call.", "why_tests_cant": "The tables belong to the process, so what a call gives depends on every call before it and on what the files said at the time.", "anchors": ["client.go GetClientContextWithFlagParse NewClientContextFromConfig Initialize Start GetClient", "server.go GetMotanServerContextWithFlagParse NewMotanServerContextFromConfig", "agent.go initLog registerSwitchers", "core/switcher.go initSwitcher Register", "core/globalContext.go Initialize parseSingleConfiguration"]}
{"id": "C106", "title": "A call that is tried again asks the next server for the same", "statement": "When the calls of a request fail at any number of endpoints, with or without a connection, the next endpoint is sent what it would be sent if it were the first: the same service, method, arguments, flags and attachments, under the number of its own stream. The body may have been compressed for an endpoint tried before and then stays compressed, and says so; decompressed it is the same. The group is that of the endpoint if it names one. A request of a client that cannot be converted for an endpoint fails there with the error it would fail with at first. So a client that calls through failover, and whose first endpoints fail because there is no connection, or because the server's handler panics or answers with an exception of its framework, gets the answer of the first handler that answers otherwise, and this handler was given the client's request; exactly these endpoints are called, in order. If all fail the client gets an exception under the id of its request. Violated: an endpoint that names no group is asked for the group of the last endpoint tried that names one, and not for the group of the caller.", "quantifier": "All requests of clients and all requests an agent relays, all sequences of endpoints tried before, their groups, settings and connections.", "why_tests_cant": "Each attempt changes the request it is given; whether the changes add up to something else depends on the whole sequence of endpoints.", "anchors": ["ha/failoverHA.go Call", "endpoint/motanCommonEndpoint.go Call fitGroup Send", "protocol/motanProtocol.go ConvertToReqMessage EncodeMessageGzip"]}
{"id": "C107", "title": "The delay before a backup request is the measured latency of the method", "statement": "A call with backup requests and without a configured delay waits, before it asks a second server, as long as the configured share of the calls took in the last complete interval of the statistics: the calls between the last two reports, made in the same role for the same group, service, application and method, in order, whatever they returned and whatever has been called since; at least ten milliseconds. Without any call of the group and service before the last report there is no measured latency. Violated: if the application of the request is not that of the endpoint's URL and the switch is off, the delay is ten milliseconds whatever the calls took; calls answered by servers of another group are not found; calls of another group and service whose names together read the same are found.", "quantifier": "All histories of calls and reports, all requests, all percentile functions of the statistics library.", "why_tests_cant": "Which calls are counted depends on the whole history of calls and reports, and on keys built in two places.", "anchors": ["ha/backupRequestHA.go Call getKey", "filter/metrics.go Filter addMetricWithKeys", "metrics/metrics.go GetStatItem SnapshotAndClear Percentile getMetricKey"]}
{"id": "C108", "title": "Failover with round robin gets past the servers that fail", "statement": "A caller that is alone at a round-robin load balancer calls through failover with n retries. If at least one server works and at most n of the listed servers fail (no connection, a panicking handler, an exception of the framework) or are not available, the caller gets the answer a working server gave to its own request, and every server called before it has failed. The servers called are always servers that the registries have announced. Violated: if another call selects a server between two attempts, or if the 32-bit counter wraps, a failing server can be asked twice while a working one is not asked.", "quantifier": "All lists of servers, all sets of failing servers, all availabilities in each attempt, all values of the counter, all numbers of retries and all histories of the cluster.", "why_tests_cant": "It is about all combinations of failing servers and counter values, and about the composition of registry, load balancer, failover, client and server.", "anchors": ["ha/failoverHA.go FailOverHA.Call", "lb/roundrobinLb.go RoundrobinLB.Select roundrobinSelect", "lb/lb.go SelectOneAtRandom"]}
{"id": "C109", "title": "After a call the reply holds the answer", "statement": "A client gives a variable for the reply. With failover: if the call returns without an error, the variable holds the value the handler of the server that answered gave to the caller's request, whatever servers failed before; if it returns an error, the error has the message of the answer and the variable holds what it held before. Violated: without an error the variable also keeps its old content if the value is null, an empty map or slice or of another type. With backup requests the variable holds what some server asked for this call answered, and exactly the answer if no second server was asked; once every server asked has answered it does not change any more. Violated: all backup requests write the same variable, so it can hold the answer of another server than the response, and it can change after the call has returned, also after an error.", "quantifier": "All values and types of the reply, all sequences of failing servers, and with backup requests all interleavings of servers, timers and the caller.", "why_tests_cant": "It is about all values, all failures before the answer and, for backup requests, all schedules, including what happens after the call has returned.", "anchors": ["client.go Client.BaseCall", "endpoint/motanCommonEndpoint.go MotanCommonEndpoint.Call", "core/motan.go MotanResponse.ProcessDeserializable MotanRequest.Clone", "ha/backupRequestHA.go BackupRequestHA.Call", "ha/failoverHA.go FailOverHA.Call", "serialize/simple.go DeSerialize"]}
{"id": "C110", "title": "A server that fails all its calls is left alone, and tried again", "statement": "In a cluster with the fail-fast filter and a round-robin load balancer, whatever has happened: a server with ten failures or more since its last success is given no call within ten seconds of a call that was given to it or that ended, so while it fails its calls are more than ten seconds apart, at most one in every ten seconds of a period and one more; when at most k calls to a server whose calls all fail are under way at once, it is given at most ten calls and k and one more for every ten seconds; when calls are made one after another, it is given at most eleven calls and one more for every ten seconds, and as long as one server with a connection answers all its calls well no more calls than that fail for each server that never does, however many attempts a call has; as long as a server with a connection has fewer failures, every call is given to some server with a connection, and to that server if all the others have ten failures or more and had a call in the last ten seconds; and once ten seconds have passed without a call to a connected server, or a question about it from elsewhere, one of the next calls, as many as there are servers, is given to it. The same holds of the weighted load balancer when it does not use its sliding window, with as many calls as the sum of the weights. The same holds of the random load balancer, where the server is given the calls whose draw falls on it once the ten seconds have passed, and of consistent hash with more than one server, where it is given the requests whose key belongs to it. A selection among servers whose availability changes when it is asked selects as among servers whose availability is fixed. Violated: a look at the runtime page counts as a try, so a page looked at every eleven seconds keeps a recovered server out for ever; so does a selection while the server has no connection; answers of the service that refuse a request count as failures of the server; a list of servers (SelectArray) asks the first one twice, and is always empty for a single server that has failed ten times. Consistent hash gives a single server every call. The sliding window of the weighted load balancer asks the server it has chosen twice, so with at most fifty servers it never again selects one that has failed ten times. As long as no server has failed ten times, lists and the sliding window select as among servers whose availability is fixed.", "quantifier": "All lists of servers, all histories of selections, results and questions with all times and random numbers.", "why_tests_cant": "It is about all histories and their times, and about states that change when they are asked.", "anchors": ["filter/failfast.go FailfastFilter.Filter FailfastFilter.IsAvailable", "core/motan.go FilterEndPoint.IsAvailable", "lb/roundrobinLb.go RoundrobinLB.Select RoundrobinLB.SelectArray", "lb/lb.go SelectOneAtRandom SelectArrayFromIndex", "lb/weightRoundRobinLb.go slidingWindowWeightedRoundRobinSelector.DoSelect roundRobinSelector.DoSelect weightedRingSelector.DoSelect", "lb/randomLb.go RandomLB.Select", "lb/consistentHashKeyLb.go ConsistentHashLB.Select", "cluster/motanCluster.go MotanCluster.GetRuntimeInfo"]}
{"id": "C111", "title": "Attachments set by many goroutines at once are not lost", "statement": "However many goroutines set, read, delete, list and count the attachments of the same request or response, or clone the request, at the same time, each operation appears to take effect at one instant between its call and its return, on one map that is empty at first: nothing that is set is lost, though the map is only made when it is first needed. So a clone has the attachments of one instant. Reading an attachment never meets a nil map, and nobody waits for ever.", "quantifier": "All numbers of goroutines, all operations, keys and values, all interleavings.", "why_tests_cant": "The map can be made twice only in a window of a few instructions; a test would have to hit it.", "anchors": ["core/motan.go MotanRequest.Clone MotanRequest.GetAttachment MotanRequest.SetAttachment MotanRequest.GetAttachments MotanResponse.GetAttachment MotanResponse.SetAttachment MotanResponse.GetAttachments", "core/map.go StringMap"]}
{"id": "C112", "title": "The pages on the machine and the process show what the system says", "statement": "The page on the machine has, for each network interface that there is at the end of a second, its addresses and what it has sent and received in this second, and at the end the same for all interfaces together; the memory in megabytes, rounded down; the cores of all processors together. The page on the process counts its connections by their states and has what it has read and written, in all and in a second; without a first reading these are left out. The list of connections tells each with its state, addresses and ports. Violated: an interface that comes up in the second is shown with all it has ever sent; one whose counters start again with a number near 2^64; one with the name of the sum is compared with the sum; the pages panic if the system does not say what memory, swap space, load or host is, or if the second reading of a process fails.", "quantifier": "All readings of the system, all interfaces, names, addresses and counters, all lists of connections.", "why_tests_cant": "The pages read the machine they run on, so a test sees one set of interfaces and no failures.", "anchors": ["manageHandler.go:StatSystem", "manageHandler.go:StatProcess", "manageHandler.go:StatConnections"]}
