{"id": "C01", "title": "Event frame round trip", "statement": "Whenever EventMessage(headers, payload).encode() succeeds, Event.decode of a source that starts with those bytes returns an event with the same header names, values and order and the same payload, and leaves the source positioned exactly after the frame. (Timestamp headers: exact for whole-second timestamps; see C02 for the fractional case.)", "quantifier": "every header mapping, every value of every header type, every payload, and every byte string following the frame on the source", "why_tests_cant": "Header names, values, payload and trailing bytes are unbounded; a test can only sample a few frames.", "anchors": ["packages/smithy-aws-event-stream/src/smithy_aws_event_stream/events.py:EventMessage.encode", "packages/smithy-aws-event-stream/src/smithy_aws_event_stream/events.py:Event.decode", "packages/smithy-aws-event-stream/src/smithy_aws_event_stream/events.py:EventHeaderEncoder", "packages/smithy-aws-event-stream/src/smithy_aws_event_stream/events.py:EventHeaderDecoder"]}
{"id": "C02", "title": "Timestamp header millisecond fidelity", "statement": "A timestamp with millisecond precision that is written as an event header is read back as the same millisecond.", "quantifier": "every timestamp that is a whole number of milliseconds, with binary64 rounding of the arithmetic", "why_tests_cant": "There are 2^53 or so timestamps, and the failures are scattered by floating-point rounding.", "anchors": ["packages/smithy-aws-event-stream/src/smithy_aws_event_stream/events.py:EventHeaderEncoder.encode_timestamp", "packages/smithy-aws-event-stream/src/smithy_aws_event_stream/events.py:_DecodeUtils.unpack_timestamp"]}
{"id": "C03", "title": "Checksum gate", "statement": "Event.decode returns an event only if the 4 bytes after the first 8 are the CRC-32 of the first 8, and the last 4 bytes of the frame are the CRC-32 of everything in between continued from the prelude CRC; any frame for which either comparison fails is rejected with an exception and no event is delivered.", "quantifier": "every byte string offered to the decoder", "why_tests_cant": "The decoder must be right on all byte strings, including adversarial ones.", "anchors": ["packages/smithy-aws-event-stream/src/smithy_aws_event_stream/events.py:Event.decode", "packages/smithy-aws-event-stream/src/smithy_aws_event_stream/events.py:_validate_checksum"]}
{"id": "C04", "title": "Corruption of a frame is detected", "statement": "If an encoded frame is altered, without changing its length, in any way confined to at most three consecutive bytes (in particular any bit, byte or field of up to 24 bits), or to four consecutive bytes that do not reach from checksummed bytes into their own checksum, then decoding a source that starts with the altered frame fails instead of returning an event.", "quantifier": "every valid frame and every non-zero error pattern within a 32-bit window", "why_tests_cant": "The number of frames and error patterns is unbounded.", "anchors": ["packages/smithy-aws-event-stream/src/smithy_aws_event_stream/events.py:_validate_checksum", "packages/smithy-aws-event-stream/src/smithy_aws_event_stream/events.py:_EventEncoder._calculate_checksum"]}
{"id": "C05", "title": "Event streams decode to exactly what was sent, at any cut point", "statement": "Decoding a concatenation of encoded frames repeatedly yields exactly the encoded messages in order and then end-of-stream; if the byte stream is cut at any point, the decoder yields a prefix of the messages and then either end-of-stream (only when the cut is on a frame boundary) or an error, and never a message that was not sent.", "quantifier": "every list of messages and every cut position", "why_tests_cant": "The cut position and stream are unbounded; a crash can happen after any byte.", "anchors": ["packages/smithy-aws-event-stream/src/smithy_aws_event_stream/events.py:Event.decode", "packages/smithy-aws-event-stream/src/smithy_aws_event_stream/events.py:Event.decode_async"]}
{"id": "C06", "title": "Size limits and declared length", "statement": "A frame is produced only if the encoded header block is at most 128 KiB, the payload at most 16 MiB, each blob/string header value at most 32767 bytes and each integer in the range of its declared width; the length written in the first four bytes of every produced frame equals the length of the frame, and the second four bytes equal the length of the header block. An event is delivered only if its declared header block and its payload are within the same limits, and a frame that declares more is refused before anything behind its prelude is read.", "quantifier": "every header mapping and payload; every byte source", "why_tests_cant": "Limits are boundaries over unbounded sizes.", "anchors": ["packages/smithy-aws-event-stream/src/smithy_aws_event_stream/events.py:_EventEncoder.encode_bytes", "packages/smithy-aws-event-stream/src/smithy_aws_event_stream/events.py:EventHeaderEncoder", "packages/smithy-aws-event-stream/src/smithy_aws_event_stream/events.py:EventPrelude.__post_init__, EventMessage.__post_init__, Event.decode"]}
{"id": "C07", "title": "No duplicate headers on the wire or after decode", "statement": "The header encoder never emits two headers with the same name over any sequence of encode calls since the last clear, and the decoder either raises or returns headers with pairwise distinct names.", "quantifier": "every sequence of header encode calls and every header block", "why_tests_cant": "Histories of calls are unbounded.", "anchors": ["packages/smithy-aws-event-stream/src/smithy_aws_event_stream/events.py:EventHeaderEncoder._encode_key", "packages/smithy-aws-event-stream/src/smithy_aws_event_stream/events.py:EventHeaderDecoder.decode_headers"]}
{"id": "C08", "title": "Header decoding accounts for every byte", "statement": "If the header decoder returns normally, then the header block is exactly the concatenation of the encodings of the returned headers: no byte is skipped, no value is shortened.", "quantifier": "every header block", "why_tests_cant": "All byte strings, in particular truncated ones.", "anchors": ["packages/smithy-aws-event-stream/src/smithy_aws_event_stream/events.py:EventHeaderDecoder.decode_header", "packages/smithy-aws-event-stream/src/smithy_aws_event_stream/events.py:_DecodeUtils.unpack_byte_array"]}
{"id": "C09", "title": "Event publisher closes once and never writes after close", "statement": "For any sequence of sends and closes, with any of the writes failing, the publisher writes nothing after its writer was closed, reports every later send as an error, closes its writer at most once per close transition and leaves it closed after a failed write, and a second close has no effect.", "quantifier": "every history of send/close calls and every pattern of write failures", "why_tests_cant": "Histories and failure patterns are unbounded.", "anchors": ["packages/smithy-aws-event-stream/src/smithy_aws_event_stream/aio/__init__.py:AWSEventPublisher"]}
{"id": "C10", "title": "Event receiver yields the sent events in order and stops at the first failure", "statement": "Receiving from a source yields the decoded events in stream order, each once; after the source is closed every receive returns nothing; a malformed frame closes the source, and no event is delivered afterwards.", "quantifier": "every history of receive/close calls and every source content", "why_tests_cant": "Histories and source contents are unbounded.", "anchors": ["packages/smithy-aws-event-stream/src/smithy_aws_event_stream/aio/__init__.py:AWSEventReceiver"]}
{"id": "C11", "title": "Signed event stream signatures form a chain", "statement": "With signing configured, the signature of the n-th event is computed from the signature of the (n-1)-th (the first from the request's signature), so the sequence of signatures is the fold of the signing function over the sequence of sent payloads, and closing emits exactly one signed empty frame at the end of the chain.", "quantifier": "every sequence of payloads, timestamps and credentials", "why_tests_cant": "The chain is a property of unbounded histories.", "anchors": ["packages/aws-sdk-signers/src/aws_sdk_signers/signers.py:AsyncEventSigner.sign_event", "packages/smithy-aws-event-stream/src/smithy_aws_event_stream/aio/__init__.py:AWSEventPublisher"]}
{"id": "C12", "title": "Retry quota stays within its bounds under concurrency", "statement": "The capacity available in a shared retry quota is never negative and never exceeds its maximum, whatever threads do, and capacity taken is exactly the cost reported to the caller.", "quantifier": "every number of threads and every interleaving of the individual steps of acquire and release", "why_tests_cant": "Interleavings are unbounded and not reproducible in a test.", "anchors": ["packages/smithy-core/src/smithy_core/retries.py:StandardRetryQuota.acquire", "packages/smithy-core/src/smithy_core/retries.py:StandardRetryQuota.release"]}
{"id": "C13", "title": "Retry attempts are bounded", "statement": "A request driven by a retry strategy makes at most max(1, max_attempts) attempts, however it and other requests sharing the strategy fail; the retry count in the token is the number of refreshes made; and retry-safe failures with capacity left are retried up to exactly that limit.", "quantifier": "every sequence of errors and every max_attempts", "why_tests_cant": "Sequences of failures are unbounded.", "anchors": ["packages/smithy-core/src/smithy_core/aio/retries.py:SimpleRetryStrategy", "packages/smithy-core/src/smithy_core/aio/retries.py:StandardRetryStrategy.refresh_retry_token_for_retry"]}
{"id": "C14", "title": "Backoff delay bounds", "statement": "Every delay computed for a retry lies between 0 and the configured maximum; without jitter it is min(max, scale*2^(n-1)); with equal jitter at least half of that; with full jitter at most that; it is zero for the initial attempt; it does not decrease with n without jitter; a server-supplied retry-after moves the delay only within [delay, delay+5s].", "quantifier": "every attempt number, scale, maximum, random draw in [0,1] and history of previous delays", "why_tests_cant": "Real-valued and history dependent.", "anchors": ["packages/smithy-core/src/smithy_core/retries.py:ExponentialRetryBackoffStrategy", "packages/smithy-core/src/smithy_core/aio/retries.py:StandardRetryStrategy.refresh_retry_token_for_retry"]}
{"id": "C15", "title": "A retry is granted only for retry-safe errors with quota, and a refusal costs nothing", "statement": "A refreshed token is returned only if the error is marked safe to retry, attempts remain and the quota covers the cost (5 for throttling, 14 otherwise); exactly that cost is deducted; whenever an error is raised instead, the quota is unchanged.", "quantifier": "every quota state, token and error", "why_tests_cant": "Quota state is the result of unbounded histories.", "anchors": ["packages/smithy-core/src/smithy_core/aio/retries.py:StandardRetryStrategy.refresh_retry_token_for_retry", "packages/smithy-core/src/smithy_core/retries.py:StandardRetryQuota"]}
{"id": "C16", "title": "Chunked async reader equals its source", "statement": "Reading from an async byte reader in any pattern of sizes returns consecutive pieces of the concatenated source: the pieces returned so far followed by what a final read-all returns equal the source, a positive-size read returns exactly min(size, remaining) bytes, and no byte is lost or repeated whatever the chunking.", "quantifier": "every chunking of the source (including empty chunks) and every sequence of read sizes", "why_tests_cant": "Chunkings and read sequences are unbounded.", "anchors": ["packages/smithy-core/src/smithy_core/aio/types.py:AsyncBytesReader.read"]}
{"id": "C17", "title": "Seekable async reader behaves like a seekable file", "statement": "Over any sequence of reads, seeks and tells, a seekable async reader behaves as a cursor over the full source content: each read returns the bytes from the cursor and advances it, tell is the cursor, and seeking moves it, independent of how much was buffered.", "quantifier": "every source chunking and every sequence of read/seek/tell", "why_tests_cant": "Histories are unbounded.", "anchors": ["packages/smithy-core/src/smithy_core/aio/types.py:SeekableAsyncBytesReader"]}
{"id": "C18", "title": "Bytes provider delivers written chunks once, in order, within its bound", "statement": "Every chunk accepted by the provider is delivered to the reader exactly once, in the order accepted; never more than max_buffered_chunks are buffered by writers; nothing is accepted once closing has begun; a flushing close ends iteration only after every accepted chunk was delivered.", "quantifier": "every number of writers, every interleaving of tasks and every placement of flush/close", "why_tests_cant": "Schedules are unbounded.", "anchors": ["packages/smithy-core/src/smithy_core/aio/types.py:AsyncBytesProvider"]}
{"id": "C19", "title": "Bytes provider never deadlocks while the reader keeps reading", "statement": "While a reader keeps reading, every pending write and flush on the provider eventually completes (or fails because of close).", "quantifier": "every schedule of one reader, any writers and flushers", "why_tests_cant": "Lost wakeups show up only under particular schedules.", "anchors": ["packages/smithy-core/src/smithy_core/aio/types.py:AsyncBytesProvider.write", "packages/smithy-core/src/smithy_core/aio/types.py:AsyncBytesProvider.flush"]}
{"id": "C20", "title": "Interceptor modifications compose", "statement": "When several interceptors are registered, the value produced by one modify hook is what the next interceptor's modify hook sees, so the final value is the composition of all modifications in registration order.", "quantifier": "every list of interceptors and every modification", "why_tests_cant": "Lists of interceptors and their behaviours are unbounded.", "anchors": ["packages/smithy-core/src/smithy_core/interceptors.py:InterceptorChain"]}
{"id": "C21", "title": "Every interceptor's before-hook runs even when another one fails", "statement": "read_before_execution / read_before_attempt / read_after_attempt / read_after_execution of every registered interceptor run even if some raise, and the last raised error wins.", "quantifier": "every list of interceptors and every pattern of failures", "why_tests_cant": "Failure patterns are unbounded.", "anchors": ["packages/smithy-core/src/smithy_core/interceptors.py:InterceptorChain"]}
{"id": "C22", "title": "Completion hooks run exactly once per call", "statement": "However a call ends, with success or with a failure raised at any stage, the modify_before_completion step and then the read_after_execution step run exactly once, after every attempt has finished, and each started attempt runs its own completion steps exactly once; what the caller observes is the outcome after the last of these hooks.", "quantifier": "every point of failure, every number of attempts and every interceptor behaviour", "why_tests_cant": "The failure point can be any stage of any attempt.", "anchors": ["packages/smithy-core/src/smithy_core/aio/client.py:RequestPipeline"]}
{"id": "C23", "title": "Request pipeline hook order", "statement": "For every call, the interceptor hooks and the pipeline's own steps (serialize, resolve identity, endpoint, sign, transmit, deserialize) happen in the documented order, a prefix of that order on failure, with the attempt-level section repeated once per attempt.", "quantifier": "every outcome of each step and any number of attempts", "why_tests_cant": "Combinations of step outcomes over retries are unbounded.", "anchors": ["packages/smithy-core/src/smithy_core/aio/client.py:RequestPipeline._execute_request", "packages/smithy-core/src/smithy_core/aio/client.py:RequestPipeline._handle_attempt"]}
{"id": "C24", "title": "Modified input is what gets serialized", "statement": "The request sent is serialized from the input returned by modify_before_serialization.", "quantifier": "every interceptor list and input", "why_tests_cant": "Inputs and interceptors are unbounded.", "anchors": ["packages/smithy-core/src/smithy_core/aio/client.py:RequestPipeline._execute_request"]}
{"id": "C25", "title": "Header collection is a case-insensitive insertion-ordered map", "statement": "Over any sequence of set/get/delete/extend/contains operations a Fields collection behaves as a map keyed by the lower-cased name: a field set under one casing is found under every other, iteration yields each field once in insertion order, construction with two names equal up to case fails, and a name/field mismatch is rejected.", "quantifier": "every sequence of operations and every casing", "why_tests_cant": "Histories are unbounded.", "anchors": ["packages/smithy-http/src/smithy_http/__init__.py:Fields"]}
{"id": "C26", "title": "Multi-value header text round trip", "statement": "Splitting the comma-joined text produced for a header with two or more values yields the same values, quoted or not, provided each unquoted value is non-empty and has no surrounding blanks; text that is not a list of unquoted values and quoted strings is rejected.", "quantifier": "every list of at least two values over all characters", "why_tests_cant": "Values with quotes, backslashes and commas in all positions are unbounded.", "anchors": ["packages/smithy-http/src/smithy_http/__init__.py:Field.as_string", "packages/smithy-http/src/smithy_http/__init__.py:quote_and_escape_field_value", "packages/smithy-http/src/smithy_http/utils.py:split_header"]}
{"id": "C27", "title": "Path labels cannot change the path structure", "statement": "For every label value, the serialized request path has the same slash structure as the URI pattern for non-greedy labels, contains no '?' or '#', and percent-decoding each segment gives back the value; greedy labels contribute exactly their own slashes.", "quantifier": "every label value, including dots, slashes, percent signs and non-ASCII text", "why_tests_cant": "Label values are unbounded.", "anchors": ["packages/smithy-http/src/smithy_http/serializers.py:HTTPPathSerializer", "packages/smithy-core/src/smithy_core/types.py:PathPattern"]}
{"id": "C28", "title": "Query parameters round trip", "statement": "Joining query parameters yields text from which the ordered list of (name, value) pairs is recovered, whatever bytes they contain, when appended to an existing query.", "quantifier": "every list of pairs and prefix", "why_tests_cant": "Names and values are unbounded.", "anchors": ["packages/smithy-http/src/smithy_http/utils.py:join_query_params", "packages/smithy-http/src/smithy_http/serializers.py:HTTPQuerySerializer"]}
{"id": "C29", "title": "Every member is bound to exactly one HTTP location", "statement": "Each member of an operation's input (output) is bound to exactly one location determined by the documented precedence of its traits; payload and body bindings exclude each other: members without a binding go to the body only if no member is the payload.", "quantifier": "every combination of traits on any number of members", "why_tests_cant": "Trait combinations across members are unbounded.", "anchors": ["packages/smithy-http/src/smithy_http/bindings.py:RequestBindingMatcher", "packages/smithy-http/src/smithy_http/bindings.py:ResponseBindingMatcher"]}
{"id": "C30", "title": "User-agent components are sanitized", "statement": "Every rendered user-agent component contains only characters allowed by the specification, keeps every allowed character in place, and cannot introduce a new component separator.", "quantifier": "every name and value", "why_tests_cant": "Values are unbounded.", "anchors": ["packages/smithy-http/src/smithy_http/user_agent.py"]}
{"id": "C31", "title": "API-key signing preserves the request", "statement": "Signing with an API key leaves every part of the request unchanged except the header or query parameter carrying the key.", "quantifier": "every request and API key", "why_tests_cant": "Requests are unbounded.", "anchors": ["packages/smithy-http/src/smithy_http/aio/auth/apikey.py:APIKeySigner"]}
{"id": "C32", "title": "Error classification", "statement": "An HTTP error response is turned into the modeled error exactly when its identifier resolves in the registry, otherwise into a generic call error with fault 'client' for 4xx and 'server' for 5xx, timeout for 408, throttling for 429 and never marked as definitely unsafe to retry.", "quantifier": "every status code, header and body error code", "why_tests_cant": "Status and code combinations are unbounded.", "anchors": ["packages/smithy-http/src/smithy_http/aio/protocols.py:HttpClientProtocol._create_error", "packages/smithy-aws-core/src/smithy_aws_core/aio/protocols.py"]}
{"id": "C33", "title": "Signature independence from header casing and insertion order", "statement": "The canonical request and signed header list computed for SigV4 do not depend on the casing of header names or their insertion order, list each signed header once in sorted order, and never include user-agent, x-amzn-trace-id, expect, transfer-encoding or authorization-style excluded headers.", "quantifier": "every header collection, permutation and casing", "why_tests_cant": "Permutations and casings are unbounded.", "anchors": ["packages/aws-sdk-signers/src/aws_sdk_signers/signers.py:SigV4Signer._format_canonical_fields", "packages/aws-sdk-signers/src/aws_sdk_signers/signers.py:SigV4Signer.canonical_request"]}
{"id": "C34", "title": "Canonical query independence from parameter order", "statement": "The canonical query string depends only on the multiset of decoded (name, value) parameters and not on their order or the encoding used by the caller.", "quantifier": "every query string", "why_tests_cant": "Queries are unbounded.", "anchors": ["packages/aws-sdk-signers/src/aws_sdk_signers/signers.py:SigV4Signer._format_canonical_query"]}
{"id": "C35", "title": "Signing does not alter the caller's request", "statement": "Signing returns a new request: the original's fields are untouched, the new one differs only by the date, (optional) security-token, (optional) content-hash and authorization headers, and signing twice at the same instant with the same credentials gives the same authorization value.", "quantifier": "every request and credentials", "why_tests_cant": "Requests are unbounded.", "anchors": ["packages/aws-sdk-signers/src/aws_sdk_signers/signers.py:SigV4Signer.sign"]}
{"id": "C36", "title": "Dot-segment removal", "statement": "Normalizing a path leaves no '.' or '..' segment, never climbs above the root, is idempotent, and agrees with the RFC 3986 algorithm on absolute paths.", "quantifier": "every path", "why_tests_cant": "Paths are unbounded.", "anchors": ["packages/smithy-core/src/smithy_core/utils.py:remove_dot_segments", "packages/aws-sdk-signers/src/aws_sdk_signers/signers.py:_remove_dot_segments"]}
{"id": "C37", "title": "Shape identifiers round trip", "statement": "Parsing the text of a shape identifier built from valid parts gives those parts back; parsing is injective; identifiers lacking a '#', or with empty parts are rejected.", "quantifier": "every string and every triple of parts", "why_tests_cant": "Strings are unbounded.", "anchors": ["packages/smithy-core/src/smithy_core/shapes.py:ShapeID"]}
{"id": "C38", "title": "Member schemas inherit and override traits", "statement": "A member schema has exactly the traits of its target overridden by its own, the members of its target, and never targets another member; looking up a trait gives the member's own trait if present, otherwise the target's.", "quantifier": "every target schema and list of member traits", "why_tests_cant": "Schemas are unbounded.", "anchors": ["packages/smithy-core/src/smithy_core/schemas.py:Schema.member", "packages/smithy-core/src/smithy_core/schemas.py:Schema.get_trait"]}
{"id": "C39", "title": "Documents reflect their latest contents", "statement": "After any sequence of document updates through subscript assignment, deletion, insertion, the plain value of the document equals the plain value updated the same way.", "quantifier": "every document and every sequence of updates at any nesting depth", "why_tests_cant": "Histories and depths are unbounded.", "anchors": ["packages/smithy-core/src/smithy_core/documents.py:Document"]}
{"id": "C40", "title": "Type registry lookup order", "statement": "Looking up an identifier in nested registries returns the innermost registered type, falls back to enclosing registries, and fails exactly when no registry has it.", "quantifier": "every nesting of registries", "why_tests_cant": "Depth is unbounded.", "anchors": ["packages/smithy-core/src/smithy_core/documents.py:TypeRegistry"]}
{"id": "C41", "title": "Typed property bag is a map", "statement": "A typed property bag behaves as a map from key names to values over any history of updates, and copying it isolates later updates.", "quantifier": "every sequence of operations", "why_tests_cant": "Histories are unbounded.", "anchors": ["packages/smithy-core/src/smithy_core/types.py:TypedProperties"]}
{"id": "C42", "title": "JSON strings round trip", "statement": "The JSON text written for any string is a valid JSON string literal that decodes to the same string and contains no raw control character or unescaped quote.", "quantifier": "every string", "why_tests_cant": "Strings are unbounded.", "anchors": ["packages/smithy-json/src/smithy_json/_private/serializers.py:_escape_string"]}
{"id": "C43", "title": "JSON output is well formed", "statement": "Serializing any value through the JSON codec produces exactly one well-formed JSON document whose structure mirrors the value, for every nesting depth.", "quantifier": "every value tree, except non-finite floats", "why_tests_cant": "Nesting is unbounded.", "anchors": ["packages/smithy-json/src/smithy_json/_private/serializers.py:JSONShapeSerializer", "packages/smithy-json/src/smithy_json/_private/serializers.py:StreamingJSONEncoder"]}
{"id": "C44", "title": "JSON shapes round trip", "statement": "Deserializing the JSON written for a value with the same schema returns the same value; unknown members and null members in the input are ignored without affecting the others.", "quantifier": "every schema and value, every unknown member of any shape", "why_tests_cant": "Schemas and values are unbounded.", "anchors": ["packages/smithy-json/src/smithy_json/_private/deserializers.py:JSONShapeDeserializer"]}
{"id": "C45", "title": "XML unknown elements are skipped whole", "statement": "When an XML structure contains an element that is not modeled, that element and everything in it is skipped and the remaining members are read as if it had not been there.", "quantifier": "every nested unknown element", "why_tests_cant": "Nesting is unbounded.", "anchors": ["packages/smithy-xml/src/smithy_xml/_private/deserializers.py"]}
{"id": "C46", "title": "AWS query serialization addresses each value once", "statement": "The query-protocol body starts with Action and Version, has one entry per scalar with a key that is the path of names and 1-based indices to it, no two scalars share a key, and the text decodes back to that list of pairs.", "quantifier": "every value tree with distinct member names", "why_tests_cant": "Trees are unbounded.", "anchors": ["packages/smithy-aws-core/src/smithy_aws_core/_private/query/serializers.py:QueryShapeSerializer"]}
{"id": "C47", "title": "Shared config file parsing", "statement": "Parsing the text of a config file built from any sections and properties gives these sections and properties back, comments and blank lines have no effect, a property outside a section is an error, and the later of two assignments wins.", "quantifier": "every file content", "why_tests_cant": "Files are unbounded.", "anchors": ["packages/smithy-aws-core/src/smithy_aws_core/config/file_parser.py"]}
{"id": "C48", "title": "Profile standardization and merge precedence", "statement": "A [profile X] section defines profile X, [profile default] takes precedence over [default] entirely, sections of unknown type or with invalid names are ignored, and for a property in both files the credentials file wins.", "quantifier": "every pair of parsed files", "why_tests_cant": "Combinations are unbounded.", "anchors": ["packages/smithy-aws-core/src/smithy_aws_core/config/file_parser.py:standardize", "packages/smithy-aws-core/src/smithy_aws_core/config/merged_config.py:MergedConfig"]}
{"id": "C49", "title": "Configuration precedence", "statement": "Each configuration setting is taken from the explicit override if given, otherwise from the environment, otherwise from the active profile, otherwise from the default; the reported source matches; an invalid value is rejected whichever source it came from; and an assignment that fails leaves the old value in place.", "quantifier": "every combination of sources and every history of assignments", "why_tests_cant": "Combinations and histories are unbounded.", "anchors": ["packages/smithy-aws-core/src/smithy_aws_core/config/aws_config.py", "packages/smithy-aws-core/src/smithy_aws_core/config/resolvers.py", "packages/smithy-aws-core/src/smithy_aws_core/config/validators.py"]}
{"id": "C50", "title": "Cached identities are fresh", "statement": "A caching identity resolver never returns an expired identity if its source returns only unexpired ones, calls its source only when there is no cached unexpired identity, and after invalidate calls it again.", "quantifier": "every history of get/invalidate calls and clock advances", "why_tests_cant": "Histories are unbounded.", "anchors": ["packages/smithy-core/src/smithy_core/aio/identity.py:CachingIdentityResolver"]}
{"id": "C51", "title": "Identity chain picks the first success", "statement": "A chain of identity resolvers returns the identity of the first resolver that does not fail, consults no later resolver, reports every failure in order when all fail, and propagates other errors at once.", "quantifier": "every list of resolvers and outcomes", "why_tests_cant": "Lists are unbounded.", "anchors": ["packages/smithy-core/src/smithy_core/aio/identity.py:ChainedIdentityResolver", "packages/smithy-aws-core/src/smithy_aws_core/identity/chain/__init__.py:IdentityChain"]}
{"id": "C52", "title": "Identity chain assembly order", "statement": "Assembled providers are set up in order of standard slot, then before/standard/after, then discovery order; duplicates of a name or a standard slot are rejected; no resolver is added after a terminal one; the order of providers in different positions does not depend on discovery order.", "quantifier": "every list of providers", "why_tests_cant": "Permutations are unbounded.", "anchors": ["packages/smithy-aws-core/src/smithy_aws_core/identity/chain/__init__.py", "packages/smithy-aws-core/src/smithy_aws_core/identity/chain/provider.py:ChainSetup"]}
{"id": "C53", "title": "Container credential endpoint host allow-list", "statement": "The container credentials client sends a request only to a loopback address or one of the documented container hosts; a full URI in the environment is asked at the scheme, host, port and path that are written in it if its host is one of these, and is refused before anything is sent otherwise.", "quantifier": "every endpoint URL and resolution result", "why_tests_cant": "Hosts are unbounded.", "anchors": ["packages/smithy-aws-core/src/smithy_aws_core/identity/container.py:ContainerMetadataClient"]}
{"id": "C54", "title": "IMDS token cache", "statement": "Concurrent requests for a metadata token share one fetch while the token is valid, never use an expired token, and refresh an expired or invalidated token once.", "quantifier": "every interleaving of callers and clock advances", "why_tests_cant": "Interleavings are unbounded.", "anchors": ["packages/smithy-aws-core/src/smithy_aws_core/identity/imds.py:TokenCache"]}
{"id": "C55", "title": "Strict scalar parsing", "statement": "strict boolean parsing accepts exactly 'true' and 'false'; strict float parsing accepts exactly the documented grammar plus the three special names; both invert the corresponding serializer.", "quantifier": "every string", "why_tests_cant": "Strings are unbounded.", "anchors": ["packages/smithy-core/src/smithy_core/utils.py:strict_parse_bool", "packages/smithy-core/src/smithy_core/utils.py:strict_parse_float"]}
{"id": "C56", "title": "Splitting every n-th separator", "statement": "Splitting text at every n-th separator and joining the pieces with the separator gives the text back; every piece but the last contains exactly n-1 separators.", "quantifier": "every text, separator and n", "why_tests_cant": "Texts are unbounded.", "anchors": ["packages/smithy-core/src/smithy_core/utils.py:split_every"]}
{"id": "C57", "title": "Service endpoint composition", "statement": "Combining a request with a service endpoint keeps the endpoint's scheme, host, port and credentials, places the endpoint's path before the request's and preserves both queries.", "quantifier": "every endpoint and request URI", "why_tests_cant": "URIs are unbounded.", "anchors": ["packages/smithy-http/src/smithy_http/aio/protocols.py:HttpProtocol.set_service_endpoint"]}
{"id": "C58", "title": "Retry-after parsing", "statement": "The retry-after header is interpreted as milliseconds when it is a non-negative number and otherwise ignored; it never produces a negative delay.", "quantifier": "every header value", "why_tests_cant": "Header values are unbounded.", "anchors": ["packages/smithy-aws-core/src/smithy_aws_core/utils.py:parse_retry_after"]}
{"id": "C59", "title": "Error code normalization", "statement": "Any combination of a namespace prefix and a trailing URL around an error code is stripped, the code in between is kept, and normalization is idempotent.", "quantifier": "every error code string", "why_tests_cant": "Strings are unbounded.", "anchors": ["packages/smithy-aws-core/src/smithy_aws_core/utils.py:parse_error_code", "packages/smithy-http/src/smithy_http/aio/restjson.py"]}
{"id": "C60", "title": "Request body replay", "statement": "On every retry of a request whose body is seekable the transport is handed the full original body from its start; requests with a non-seekable streaming body are not retried.", "quantifier": "every number of attempts and amount consumed by each failed attempt", "why_tests_cant": "Amounts consumed and attempts are unbounded.", "anchors": ["packages/smithy-core/src/smithy_core/aio/client.py:RequestPipeline", "packages/smithy-core/src/smithy_core/aio/utils.py:seek"]}
{"id": "C61", "title": "Declared header length fits the frame", "statement": "An event is delivered only if the header length declared in its prelude fits into the declared total length (total >= headers + 16), so that header block and payload partition the frame.", "quantifier": "every byte source", "why_tests_cant": "needs a frame with valid checksums and inconsistent lengths; tests only decode frames produced by the encoder or with a broken checksum", "anchors": ["packages/smithy-aws-event-stream/src/smithy_aws_event_stream/events.py: Event.decode", "packages/smithy-aws-event-stream/src/smithy_aws_event_stream/events.py: EventPrelude"]}
{"id": "C62", "title": "A header that cannot be encoded leaves the encoder output unchanged", "statement": "If encoding a header raises, the bytes the header encoder returns afterwards are those of the headers encoded successfully.", "quantifier": "every encoder state, header name and value", "why_tests_cant": "ranges over every state and every failing value; tests look at the exception only", "anchors": ["packages/smithy-aws-event-stream/src/smithy_aws_event_stream/events.py: EventHeaderEncoder"]}
{"id": "C63", "title": "Event publisher with calls in progress concurrently never writes after closing its writer", "statement": "However send and close calls overlap in time and whichever writes and identity lookups fail, the publisher never writes to its writer after it has closed it.", "quantifier": "every interleaving of concurrent send/close calls and every pattern of failures of writes, of the writer's close and of identity resolution", "why_tests_cant": "Interleavings and failure patterns are unbounded; the violating schedule needs an identity failure inside close while a send waits.", "anchors": ["packages/smithy-aws-event-stream/src/smithy_aws_event_stream/aio/__init__.py:AWSEventPublisher.send", "packages/smithy-aws-event-stream/src/smithy_aws_event_stream/aio/__init__.py:AWSEventPublisher.close"]}
{"id": "C64", "title": "Retry storms are bounded by the quota", "statement": "All requests sharing a standard retry strategy are together granted at most (initial capacity + 14 per success) / 5 retries; against a service on which nothing succeeds and which does not throttle, the default quota grants at most 35 retries ever.", "quantifier": "every number of requests, every interleaving of their failures and successes, every error", "why_tests_cant": "The number of requests and the length of histories are unbounded.", "anchors": ["packages/smithy-core/src/smithy_core/aio/retries.py:StandardRetryStrategy", "packages/smithy-core/src/smithy_core/retries.py:StandardRetryQuota", "packages/smithy-core/src/smithy_core/aio/client.py:RequestPipeline._retry"]}
{"id": "C65", "title": "Messages flow through the pipeline unchanged", "statement": "During a call each pipeline step and hook is given exactly the message (input, request, response or outcome) the previous step left, every attempt starts from the request that modify_before_retry_loop returned, the retry strategy is asked with the error of the attempt that failed and told of success after an attempt that succeeded, and the caller gets what the last hook left.", "quantifier": "every combination of hooks, protocol, resolvers, signers, transport and retry strategy (any results, any exceptions), every number of attempts, every point at which the call is cut off", "why_tests_cant": "Each test fixes one set of collaborators and one failure; the claim is about all of them and about attempts without bound.", "anchors": ["packages/smithy-core/src/smithy_core/aio/client.py: RequestPipeline._handle_execution, _retry, _handle_attempt, _finalize_attempt, _finalize_execution"]}
{"id": "C66", "title": "Authentication uses the first supported option and its properties", "statement": "An attempt is signed with the first offered auth option whose scheme the client supports, unsigned only if no offered option is supported; the identity resolver is given the scheme's identity properties updated with the option's identity properties and the signer the scheme's signer properties updated with the option's signer properties.", "quantifier": "all lists of auth options, all sets of supported schemes, all property bags", "why_tests_cant": "Tests offer one or two options; the choice must be right for every list, and every property must reach its consumer.", "anchors": ["packages/smithy-core/src/smithy_core/aio/client.py: RequestPipeline._resolve_auth, _handle_attempt"]}
{"id": "C67", "title": "Content type and length describe the body", "statement": "A serialized request has one content type, the one given by a member bound to that header if there is one, and its content length, if present, is the number of bytes of the body; a payload that requires a length gets one whenever the length can be determined.", "quantifier": "every structure of bound members and every value", "why_tests_cant": "Members, bindings and payload sizes are unbounded.", "anchors": ["packages/smithy-http/src/smithy_http/serializers.py:HTTPRequestSerializer.begin_struct", "packages/smithy-http/src/smithy_http/serializers.py:_compute_content_length"]}
{"id": "C68", "title": "Query members take precedence over entries of a query map", "statement": "A query parameter bound to a member is sent with that member's values only, even if a map bound to the query string has an entry of the same name.", "quantifier": "all query members and maps", "why_tests_cant": "Names in the map are chosen by the caller.", "anchors": ["packages/smithy-http/src/smithy_http/serializers.py:HTTPQuerySerializer", "packages/smithy-http/src/smithy_http/serializers.py:HTTPQueryMapSerializer"]}
{"id": "C69", "title": "Where REST-JSON error information comes from", "statement": "The error code of a REST-JSON error response is the first non-empty one among the error-type header and the members __type and code of the body, in any casing, without namespace and URL; the message is the first non-empty one of the message members; what is missing becomes 'Unknown'. A body that is not an object is treated as having no members.", "quantifier": "every set of header fields and every JSON body", "why_tests_cant": "Member names, casings and orders combine without bound.", "anchors": ["packages/smithy-http/src/smithy_http/aio/restjson.py"]}
{"id": "C70", "title": "A modeled host prefix reaches the wire", "statement": "When an operation declares a host prefix, the request is sent to the prefix followed by the host of the resolved endpoint.", "quantifier": "every operation with a host prefix, every host label value and every resolved endpoint", "why_tests_cant": "The host is assembled by two steps written apart (serializer, endpoint); a test fixes one prefix and one endpoint.", "anchors": ["packages/smithy-http/src/smithy_http/serializers.py:HostPrefixSerializer", "packages/smithy-http/src/smithy_http/aio/protocols.py:HttpClientProtocol.set_service_endpoint"]}
{"id": "C71", "title": "A URI only takes hosts of RFC 3986", "statement": "A URI object can be made with a host exactly when the host is a registered name, an IPv4 address, an IPv6 address with or without zone, or a bracketed literal of RFC 3986. In particular no host can hold a character that ends the host part of the written URI, and the kind of host reported is the right one.", "quantifier": "every text given as host", "why_tests_cant": "The set of accepted hosts is infinite and decided by one large regular expression.", "anchors": ["packages/smithy-core/src/smithy_core/__init__.py:URI", "packages/smithy-core/src/smithy_core/rfc3986.py"]}
{"id": "C72", "title": "The text of a URI parses back to its components", "statement": "The text written for a URI object, taken apart by the rules of RFC 3986, gives back its scheme, user name, password, host, port, path, query and fragment, whenever no component holds a character that ends it.", "quantifier": "every URI object whose components are encoded", "why_tests_cant": "Components interact through the delimiters; only a few combinations can be tried.", "anchors": ["packages/smithy-core/src/smithy_core/__init__.py:URI.build", "packages/smithy-core/src/smithy_core/__init__.py:URI.netloc"]}
{"id": "C73", "title": "Canonical requests are unambiguous", "statement": "Two requests whose canonical requests are equal have the same method, the same canonical path, the same multiset of decoded query parameters, the same signed headers with the same values up to white space, and the same payload hash: a signature for one request never authorises a different one.", "quantifier": "all pairs of requests (methods, paths, queries, header collections, payload hashes) whose header names contain no line break or colon and whose method and verbatim path contain no line break", "why_tests_cant": "Injectivity of a text format quantifies over all pairs of inputs; tests compare a handful of known canonical requests.", "anchors": ["packages/aws-sdk-signers/src/aws_sdk_signers/signers.py: SigV4Signer.canonical_request, _format_canonical_path, _format_canonical_query, _normalize_signing_fields, _format_canonical_fields"]}
{"id": "C74", "title": "The signature sent is that of the request sent", "statement": "The Authorization header of a signed request names the credentials, scope and signed headers, and its signature is the Signature Version 4 signature over the canonical request of exactly the request that is sent (its method, destination, headers and content), for the date sent as X-Amz-Date; with a content checksum asked for, the signed payload hash is sent as X-Amz-Content-SHA256.", "quantifier": "all requests, header collections, bodies, identities and signing properties, both signers, every signing time", "why_tests_cant": "Tests compare signatures of fixed vectors; that the signed text is that of the request as sent must hold for every combination of existing headers, added headers, payload options and bodies.", "anchors": ["packages/aws-sdk-signers/src/aws_sdk_signers/signers.py: SigV4Signer.sign, AsyncSigV4Signer.sign, canonical_request, string_to_sign, _signature, generate_authorization_field, _apply_required_fields, _format_canonical_payload"]}
{"id": "C75", "title": "Timestamps in date-time format keep their instant", "statement": "A timestamp written in the date-time format denotes exactly its instant in UTC, whatever time zone (or none, meaning UTC) it was given in; reading it back gives the same instant to the microsecond; every RFC 3339 text with up to six digits of fraction and any offset is read as the instant it denotes.", "quantifier": "all datetimes of the years 1 to 9999 with any fixed offset or none, all RFC 3339 date-time texts", "why_tests_cant": "Calendar arithmetic, offsets crossing days, months, leap years and centuries, and the forms of the text give billions of cases; tests try a few dates.", "anchors": ["packages/smithy-core/src/smithy_core/types.py:TimestampFormat.serialize, TimestampFormat.deserialize", "packages/smithy-core/src/smithy_core/utils.py:ensure_utc, serialize_rfc3339"]}
{"id": "C76", "title": "Timestamps in http-date format keep their second", "statement": "A timestamp written in the http-date format is the IMF-fixdate text of RFC 9110 for its instant in UTC, with the right day of the week; it reads back as the same instant less the fraction of a second; every IMF-fixdate text is read as the instant it denotes.", "quantifier": "all datetimes of the years 1 to 9999 with any offset or none, all IMF-fixdate texts", "why_tests_cant": "Days of the week and the year rules of the parser vary over all dates; tests try a few.", "anchors": ["packages/smithy-core/src/smithy_core/types.py:TimestampFormat.serialize, TimestampFormat.deserialize", "packages/smithy-core/src/smithy_core/utils.py:ensure_utc"]}
{"id": "C77", "title": "Timestamps in epoch-seconds format keep their instant", "statement": "A timestamp written as epoch seconds is an integer if it has no fraction and otherwise the nearest double to its seconds since 1970; what was written, or any number of seconds with up to six decimals, is read as exactly that instant, on every platform; a text that is no number is refused.", "quantifier": "all datetimes of the years 1 to 9999 with any offset or none, all integers, all numbers of microseconds, all ranges supported by the C library", "why_tests_cant": "Whether two float roundings cancel depends on the number; an error of one microsecond appears only for particular values.", "anchors": ["packages/smithy-core/src/smithy_core/types.py:TimestampFormat.serialize, TimestampFormat.deserialize", "packages/smithy-core/src/smithy_core/utils.py:epoch_seconds_to_datetime, serialize_epoch_seconds, ensure_utc"]}
{"id": "C78", "title": "Header values are read as they were written", "statement": "Every boolean, integer, finite or infinite float or NaN, decimal of up to 28 digits, string (with or without a media type) and timestamp that is written as the value of a header is read back from it as the same value; a timestamp as an HTTP date to the second. A list of such values that is written as one header value each is read back element by element, also when there is only one.", "quantifier": "all values of each type, all timestamp formats, all lists", "why_tests_cant": "Numerals, instants, texts and the splitting of a list at commas interact for every value; tests try a handful per type.", "anchors": ["packages/smithy-http/src/smithy_http/serializers.py:HTTPHeaderSerializer, HTTPHeaderListSerializer", "packages/smithy-http/src/smithy_http/deserializers.py:HTTPHeaderDeserializer, HTTPHeaderListDeserializer", "packages/smithy-http/src/smithy_http/utils.py:split_header"]}
{"id": "C79", "title": "Members of a response are read from where they are bound", "statement": "When a response is read into a shape, every member is read from the place it is bound to, and from no other: from the values of the header of that name in any case, from all headers under a prefix, from the status, from the body as its payload, or from the document in the body. Missing headers leave a member out, and an empty body leaves out the members read from a document.", "quantifier": "all shapes, bindings and overlaps of traits, all responses with any headers, bodies in memory, readable or streaming", "why_tests_cant": "The combination of bindings, header names, body kinds and content lengths is unbounded; tests read a few shapes.", "anchors": ["packages/smithy-http/src/smithy_http/deserializers.py:HTTPResponseDeserializer, HTTPHeaderMapDeserializer, HTTPResponseCodeDeserializer, RawPayloadDeserializer", "packages/smithy-http/src/smithy_http/bindings.py:ResponseBindingMatcher"]}
{"id": "C80", "title": "A response that was written is read back member by member", "statement": "If a response is serialized and then deserialized against the same shape, every member gets exactly what was written for it: the text or texts of its header, the entries of its map of headers, the status, the bytes of its payload, or its value in the document; members that were not written are not read.", "quantifier": "all shapes and all values written for their members, all statuses, all codecs", "why_tests_cant": "It relates two programs over all shapes and values; tests compare a few recorded messages.", "anchors": ["packages/smithy-http/src/smithy_http/serializers.py:HTTPResponseSerializer, HTTPResponseBindingSerializer", "packages/smithy-http/src/smithy_http/deserializers.py:HTTPResponseDeserializer"]}
{"id": "C81", "title": "Events arrive as the variant and with the members they were sent with", "statement": "An event or an error of a stream's union that is sent and received is read as the variant it was sent as; members bound to headers are read as their values, a blob or string bound to the payload is handed its bytes, and other members are handed the document that the codec made of them; nothing else is read. An event that the receiver does not know is reported as an unknown event with its name, an error outside the model is raised with its code and message, and the input or output sent as the first message is read in the same way.", "quantifier": "all unions, all structures in them, all values of their members, all payload codecs, both directions of the stream, whatever follows on the stream", "why_tests_cant": "It relates a serializer, a binary framing and a deserializer over all shapes and values; tests compare a few recorded messages.", "anchors": ["packages/smithy-aws-event-stream/src/smithy_aws_event_stream/_private/serializers.py:EventSerializer", "packages/smithy-aws-event-stream/src/smithy_aws_event_stream/_private/deserializers.py:EventDeserializer", "packages/smithy-aws-event-stream/src/smithy_aws_event_stream/events.py:EventMessage, Event"]}
{"id": "C82", "title": "A shape that is made a document can be read back from it", "statement": "Converting any value of a shape to a document and the document back to the shape gives the same value: all members, elements and entries in order, nested to any depth, with nulls in sparse collections.", "quantifier": "all shapes including recursive ones, all values of them, whatever was converted before", "why_tests_cant": "Values are trees of any depth and the conversion keeps state between calls in objects shared by all uses; tests convert a few values in fresh processes.", "anchors": ["packages/smithy-core/src/smithy_core/documents.py:Document.from_shape, Document.as_shape, _DocumentSerializer, _DocumentDeserializer", "codegen/core/src/main/java/software/amazon/smithy/python/codegen/generators/StructureGenerator.java"]}
{"id": "C83", "title": "A document is written like the shape it was made from", "statement": "Writing the content of a document that was made from a shape makes the same calls of the serializer, with the same schemas and in the same order, as writing the shape itself, so any protocol sends the same bytes.", "quantifier": "all shapes, all values, all serializers", "why_tests_cant": "It compares two ways of traversing trees of any depth; tests compare a few outputs of one codec.", "anchors": ["packages/smithy-core/src/smithy_core/documents.py:Document.serialize_contents, Document.from_shape"]}
{"id": "C84", "title": "A document read from JSON can be converted to the shape that was written", "statement": "If a value of a shape is written as JSON, the JSON is read as a document, and the document is converted to the shape, the result is the value that was written, as it would be had the JSON been read as the shape directly; keys that the shape does not have make no difference.", "quantifier": "all shapes, all values, all settings of the codec", "why_tests_cant": "It relates a writer, a reader and a conversion over all values; tests use a few documents.", "anchors": ["packages/smithy-json/src/smithy_json/_private/documents.py:JSONDocument", "packages/smithy-json/src/smithy_json/_private/deserializers.py:JSONShapeDeserializer.read_document", "packages/smithy-core/src/smithy_core/documents.py:_DocumentDeserializer"]}
{"id": "C85", "title": "Opening an event stream gives a stream that is being sent, or an exception", "statement": "A call of an operation with an input stream ends: either with a stream whose events go into the request that the transport has been told to send, which is the one made by serialization, endpoint resolution, signing and hooks, or with an exception if any of these fails. A call that is cancelled before sends nothing.", "quantifier": "all interceptors, protocols, resolvers, signers, transports and services, whatever step fails, all interleavings of caller and executing task, cancellation at any time", "why_tests_cant": "That nobody waits for ever is about all interleavings and all points of failure; a test that hangs shows one, tests that pass show none.", "anchors": ["packages/smithy-core/src/smithy_core/aio/client.py:RequestPipeline.input_stream, RequestPipeline.duplex_stream, RequestPipeline._execute_request", "packages/smithy-core/src/smithy_core/aio/eventstream.py:DuplexEventStream, InputEventStream"]}
{"id": "C86", "title": "Closing an event stream closes both directions", "statement": "Closing an event stream ends, whatever the service does, and afterwards the input stream is closed and so is the output stream; an exception while one is closed does not leave the other one open.", "quantifier": "all services, answering before or after the end of the input or failing, all interleavings, whether or not the output was awaited", "why_tests_cant": "Deadlocks depend on the order of events on both sides; tests use services that answer at once.", "anchors": ["packages/smithy-core/src/smithy_core/aio/client.py:RequestPipeline.input_stream, RequestPipeline.duplex_stream, RequestPipeline._execute_request", "packages/smithy-core/src/smithy_core/aio/eventstream.py:DuplexEventStream, InputEventStream"]}
{"id": "C87", "title": "All of a body is read and sent, whatever kind it is", "statement": "A body may be bytes, a bytearray, a file-like object with a plain or an asynchronous read method, an async iterable or an AsyncBytesReader. Consuming it asynchronously returns exactly its content; consuming it synchronously returns its content or, for an asynchronous body, raises AsyncBodyError. The CRT client (over HTTP/1.1 and HTTP/2) and the aiohttp client send exactly its content; looking whether a body is empty does not move its position.", "quantifier": "all bodies of all six kinds, all contents, all patterns of short reads, all positive buffer sizes, all positions in a file", "why_tests_cant": "A test reads a few small bodies; losing or repeating bytes depends on lengths, chunk boundaries and short reads.", "anchors": ["packages/smithy-core/src/smithy_core/aio/utils.py:read_streaming_blob_async, read_streaming_blob", "packages/smithy-http/src/smithy_http/aio/crt.py:AWSCRTHTTPClient._create_body_generator, AWSCRTHTTPClient._create_body_stream, AWSCRTHTTPResponse.chunks", "packages/smithy-http/src/smithy_http/aio/aiohttp.py:AIOHTTPClient._prepare_body", "packages/smithy-core/src/smithy_core/aio/types.py:AsyncBytesReader"]}
{"id": "C88", "title": "The aiohttp client sends the query and the headers of the request", "statement": "The parameters of the destination's query are handed to aiohttp, each as often as it occurs and those of one name in order, so the query string that was signed is the one the server computes. All headers are handed over with their names, values and order, and reading them back as the client reads a response gives the same fields.", "quantifier": "all query strings, including repeated names, empty parts, escapes and invalid UTF-8; all collections of fields", "why_tests_cant": "The query goes through parsing, grouping by name and writing again; only some queries survive, and tests use those.", "anchors": ["packages/smithy-http/src/smithy_http/aio/aiohttp.py:AIOHTTPClient.send, AIOHTTPClient._marshal_response"]}
{"id": "C89", "title": "The CRT client sends the target and the headers of the request", "statement": "Under every name the CRT client sends exactly the values of the request's header of that name, in order; Host (from the destination, without credentials) and Accept are added if they are absent, nothing else. Sending a request does not affect later attempts. The target begins with a slash and splits into the path and the query of the destination.", "quantifier": "all collections of fields, all destinations, all endpoints", "why_tests_cant": "It is about all header names and destinations, and about requests that are sent again after the first attempt changed them.", "anchors": ["packages/smithy-http/src/smithy_http/aio/crt.py:AWSCRTHTTPClient._marshal_request, AWSCRTHTTPClient._render_path", "packages/smithy-http/src/smithy_http/aio/protocols.py:HttpClientProtocol.set_service_endpoint"]}
{"id": "C90", "title": "Connections of the CRT client go where they should and are used again", "statement": "A request is only sent over a connection to the host and port of its destination (80 for http and 443 for https by default), with TLS for that host name if and only if the scheme is https, and with HTTP/2 if that is forced; other schemes are refused. An open connection for the same scheme, host and port is used again, and no connection is left open without being used.", "quantifier": "all sequences of sends, connections being established or failing, and connections being closed, with any number of sends at once", "why_tests_cant": "The pool is shared by concurrent tasks; mixing up connections depends on the interleaving.", "anchors": ["packages/smithy-http/src/smithy_http/aio/crt.py:AWSCRTHTTPClient._get_connection, AWSCRTHTTPClient._create_connection, AWSCRTHTTPClient._build_new_connection, AWSCRTHTTPClient._validate_connection"]}
{"id": "C91", "title": "Requests go to the endpoint that is configured", "statement": "A text scheme://userinfo@host:port/path?query#fragment configured as the endpoint gives an endpoint with that scheme and host (in small letters), port, path and query, whatever region is configured; a URI object is used as it is. Without one, a service with regional endpoints is called over https at prefix.region.amazonaws.com. No text and no region leads to a host with characters that end a host, or out of amazonaws.com in the latter case; a text without slashes, or neither endpoint nor region, is refused before anything is sent.", "quantifier": "all texts, all well-formed endpoints (names, IPv4 and IPv6 addresses with zones, any port, path and query), all regions and prefixes", "why_tests_cant": "Splitting a URI depends on the position of every delimiter; tests try a few endpoints, while a region or endpoint from the environment may be any text.", "anchors": ["packages/smithy-core/src/smithy_core/endpoints.py:resolve_static_uri", "packages/smithy-core/src/smithy_core/aio/endpoints.py:StaticEndpointResolver.resolve_endpoint", "packages/smithy-aws-core/src/smithy_aws_core/endpoints/standard_regional.py:StandardRegionalEndpointsResolver.resolve_endpoint"]}
{"id": "C92", "title": "XML responses are read as the service wrote them", "statement": "Whatever value of a structure or union a service has, if it writes it as XML by the rules of the protocol (attributes, elements under their XML names, lists and maps in an element of their own or flattened, base64 for blobs, any namespace, any names for items and entries, members in any order, and unknown elements anywhere) the client reads that value: every attribute, element, item and entry, nested to any depth, and nothing else.", "quantifier": "all schemas whose members have different names, all values of them of any depth and size, all orders of members, all namespaces and item names, all unknown elements", "why_tests_cant": "Tests compare a few documents; the state of the reader (root flag, buffered flattened elements, an element taken before) depends on everything read before, so only an induction over all values shows nothing is lost or mixed up.", "anchors": ["packages/smithy-xml/src/smithy_xml/_private/deserializers.py:XMLShapeDeserializer.read_struct", "packages/smithy-xml/src/smithy_xml/_private/deserializers.py:XMLShapeDeserializer.read_list", "packages/smithy-xml/src/smithy_xml/_private/deserializers.py:XMLShapeDeserializer.read_map", "packages/smithy-xml/src/smithy_xml/_private/deserializers.py:_AttributeDeserializer"]}
{"id": "C93", "title": "A service can read a query request back", "statement": "Whatever the input of an AWS query operation, a service that looks up the form parameters of the request by name, in whatever order they come, gets the operation, the version and the input: every member, element, entry and key, nested to any depth. So different inputs make different requests.", "quantifier": "all models (also recursive) whose structures have members with different names, all inputs of any depth and size, all orders of the parameters", "why_tests_cant": "Tests compare a few bodies with expected texts; that no two inputs share a body and nothing is lost in nested lists, maps and structures needs an induction over all inputs.", "anchors": ["packages/smithy-aws-core/src/smithy_aws_core/_private/query/serializers.py:QueryShapeSerializer", "packages/smithy-aws-core/src/smithy_aws_core/_private/query/serializers.py:QueryListSerializer.before", "packages/smithy-aws-core/src/smithy_aws_core/_private/query/serializers.py:QueryMapSerializer.entry", "packages/smithy-aws-core/src/smithy_aws_core/aio/protocols.py:AwsQueryClientProtocol.serialize_request"]}
{"id": "C94", "title": "Events are chained to the request they belong to", "statement": "The signatures of the events of an input stream form a chain that starts at exactly the signature in the Authorization header of the request that opened the stream, and they are made for the region and service of that request and with the identity resolver it was signed with.", "quantifier": "all requests, configurations, identities, signed headers and all interleavings of sends, closes and failures", "why_tests_cant": "Where the signature is cut out of the header depends on access keys, regions, services and header names in it, and the chain on the history of the stream; tests use one header and a few events.", "anchors": ["packages/smithy-aws-core/src/smithy_aws_core/auth/sigv4.py:SigV4AuthScheme", "packages/smithy-aws-core/src/smithy_aws_core/aio/protocols.py:RestJsonClientProtocol.create_event_publisher", "packages/smithy-core/src/smithy_core/aio/client.py:RequestPipeline._handle_attempt", "packages/aws-sdk-signers/src/aws_sdk_signers/signers.py:AsyncEventSigner"]}
{"id": "C95", "title": "Enums keep values they do not know", "statement": "Whatever value a service sends for an enum, the client gets an instance that has exactly that value, compares equal to it and hashes like it; it is the generated member if there is one and otherwise says that it is unknown. A placeholder for a missing value equals only itself. Equality is an equivalence that agrees with hashing and survives pickling.", "quantifier": "all enums of texts or numbers, all values, all pairs and triples of plain values, members, unknown values and placeholders, of the same or different enums", "why_tests_cant": "Python chooses which operand answers == by their classes; symmetry, transitivity and agreement with hashes are about all pairs and triples, and unknown values are by definition not those of the tests.", "anchors": ["packages/smithy-core/src/smithy_core/types.py:UnknownEnumMixin"]}
{"id": "C96", "title": "A service can read requests back", "statement": "A service that knows an operation (the pattern of its path, its query, the bindings of the members) finds in every request that is written for an input each member where it is bound, with the value that was given, and no member that was not given. Two different inputs therefore never make the same request.", "quantifier": "all operations with distinct labels, parameters and headers, with labels plain or greedy, lists, maps, prefix headers, bodies and payloads; all inputs; all texts, with slashes, percent signs, ampersands, spaces or any other character", "why_tests_cant": "Values of one member can look like separators or names of another (slashes in labels, ampersands in parameters, keys of maps); tests compare a few requests with literals and never read them back.", "anchors": ["packages/smithy-http/src/smithy_http/serializers.py:HTTPRequestSerializer", "packages/smithy-http/src/smithy_http/serializers.py:HTTPPathSerializer", "packages/smithy-http/src/smithy_http/serializers.py:HTTPQuerySerializer", "packages/smithy-http/src/smithy_http/serializers.py:HTTPHeaderSerializer", "packages/smithy-http/src/smithy_http/bindings.py:RequestBindingMatcher", "packages/smithy-core/src/smithy_core/types.py:PathPattern"]}
{"id": "C97", "title": "Paths and host prefixes are their patterns filled in", "statement": "For every URI pattern with labels {name} and {name+}, the path of a request, split at its slashes and decoded, is the pattern with the texts of the values in place of the labels, for strings, booleans, numbers and timestamps alike; values cannot add segments unless the label is greedy, nor start a query or fragment. There is a path exactly if every label has a value and no segment is empty. The URI is cut into path and query at its first question mark. Values in a host prefix are encoded and cannot end the host.", "quantifier": "all patterns of brace-free literal text and labels, all names, all values of every type, all orders and repetitions of writes", "why_tests_cant": "The text of the pattern is processed by a regular expression, a replacement and str.format, each with its own special characters; tests use a handful of patterns and values.", "anchors": ["packages/smithy-core/src/smithy_core/types.py:PathPattern", "packages/smithy-core/src/smithy_core/traits.py:HTTPTrait", "packages/smithy-http/src/smithy_http/serializers.py:HTTPPathSerializer", "packages/smithy-http/src/smithy_http/serializers.py:HostPrefixSerializer"]}
{"id": "C98", "title": "A signed request that is sent is accepted by the service, and a changed one is not", "statement": "A request that was signed with Signature Version 4 and is sent with the CRT client is accepted by a service that works out the canonical request from the received message alone (target, headers, content) and compares signatures: the host header the client adds is the one that was signed, the path and query of the target, the values of all signed headers and the content hash are those signed, and host and all x-amz- headers are signed. A message that carries the authorization of another one is only accepted if it has the same date, method, normalised path and query, content hash and values of all signed headers.", "quantifier": "all requests with one value per header, all destinations, headers, bodies, credentials and signing properties; for the second part all pairs of messages without line breaks, hashes without collisions", "why_tests_cant": "Tests compare signatures with stored ones or run against a service for a few requests; signer and HTTP client derive host, target and headers independently and must agree for every request.", "anchors": ["packages/aws-sdk-signers/src/aws_sdk_signers/signers.py:SigV4Signer", "packages/aws-sdk-signers/src/aws_sdk_signers/signers.py:AsyncSigV4Signer", "packages/smithy-http/src/smithy_http/aio/crt.py:AWSCRTHTTPClient._marshal_request"]}
{"id": "C99", "title": "Which credentials a user gets by default", "statement": "A credentials chain made from the standard providers gives the credentials of the environment if it has both keys, and then neither reads the configuration files nor consults any other provider; else those of the profile in use (the one given, or AWS_PROFILE, or default) with its session token and account if it has them; else it is empty and asking for credentials raises. Faulty files raise when they are needed and only then. This does not depend on the order in which providers are discovered nor on additional providers that come later. Credentials of the environment are those at the time they are first asked for and do not change afterwards; those of a profile are fixed when the chain is made. All parts of credentials come from the same place and are not empty.", "quantifier": "all environments, all contents of both files, all given profiles and configurations, all orders of discovery, all additional providers positioned after the standard ones", "why_tests_cant": "Precedence is decided by four providers, a sort and shared state together; tests run single providers or a few arrangements.", "anchors": ["packages/smithy-aws-core/src/smithy_aws_core/identity/chain/__init__.py:IdentityChain.create", "packages/smithy-aws-core/src/smithy_aws_core/identity/chain/providers/environment.py:EnvironmentCredentialsProvider", "packages/smithy-aws-core/src/smithy_aws_core/identity/chain/providers/shared_config.py:SharedConfigProvider", "packages/smithy-aws-core/src/smithy_aws_core/identity/chain/providers/profile.py", "packages/smithy-aws-core/src/smithy_aws_core/identity/environment.py:EnvironmentCredentialsResolver", "packages/smithy-aws-core/src/smithy_aws_core/identity/static.py:StaticCredentialsResolver"]}
{"id": "C100", "title": "Responses with missing members still give complete objects", "statement": "For every model of a service and every structure in it, deserializing gives an object of the generated class in which each member that was read has the value read last, each required member that is missing has a value that can stand for it as Smithy's client error correction says (nested structures included, to any depth), and each optional member that is missing has the default of the model; only if a member is missing that nothing can stand for (a stream, or a structure that requires one) is there an error, and then always a TypeError. The expressions that are generated for missing members never fail.", "quantifier": "every model of a service (shapes, nesting, names), every structure in it, every sequence of members that is read", "why_tests_cant": "Whether generated code calls a method that was not generated, or recurses without end, depends on the whole model of the service; tests have the few models that are in the repository.", "anchors": ["codegen/core/src/main/java/software/amazon/smithy/python/codegen/generators/StructureGenerator.java:writeProperties", "codegen/core/src/main/java/software/amazon/smithy/python/codegen/generators/StructureGenerator.java:errorCorrections", "codegen/core/src/main/java/software/amazon/smithy/python/codegen/generators/StructureGenerator.java:generateSmithyDefaultMethod", "codegen/core/src/main/java/software/amazon/smithy/python/codegen/generators/MemberErrorCorrectionGenerator.java", "codegen/core/src/main/java/software/amazon/smithy/python/codegen/RequiredMemberTargetIndex.java"]}
{"id": "C101", "title": "Generated errors say what the model says about retries and fault", "statement": "For every error of a model, the exception made from a response has the fault of the trait error, is safe to retry if the model says it is retryable, is a throttling error if the model says so, has no retry delay of its own, and has the message that was sent or an empty one.", "quantifier": "every model of a service, every error in it, every sequence of members that is read", "why_tests_cant": "Members of errors may have any name, and attributes of the exception share one namespace with those of its base class; tests have errors with harmless names only.", "anchors": ["codegen/core/src/main/java/software/amazon/smithy/python/codegen/generators/StructureGenerator.java:renderError", "codegen/core/src/main/java/software/amazon/smithy/python/codegen/PythonSymbolProvider.java:toMemberName", "codegen/core/src/main/java/software/amazon/smithy/python/codegen/CodegenUtils.java:isErrorMessage", "packages/smithy-core/src/smithy_core/exceptions.py:CallError", "packages/smithy-core/src/smithy_core/exceptions.py:ModeledError"]}
{"id": "C102", "title": "Objects are written member by member and come back the same", "statement": "For every structure of a model, an object is written in the order of the model with exactly the members that have a value or cannot be null, and deserializing what was written gives an object with the same attributes.", "quantifier": "every model of a service, every structure in it, every object of the class", "why_tests_cant": "Whether a member is written depends on nullability, default and target at once; the combinations are those of all models.", "anchors": ["codegen/core/src/main/java/software/amazon/smithy/python/codegen/generators/StructureGenerator.java:generateSerializeMethod", "codegen/core/src/main/java/software/amazon/smithy/python/codegen/generators/StructureGenerator.java:isNullable", "codegen/core/src/main/java/software/amazon/smithy/python/codegen/generators/StructureGenerator.java:generateDeserializeMethod"]}
{"id": "C103", "title": "A client keeps the retry strategy its settings describe", "statement": "Whatever calls any clients have made before, a client configured with a strategy object uses that object; one configured with options or with nothing gets a strategy of the mode and with the number of attempts the options describe, and an error if they describe none. A client that asks for the same settings again gets the same object (and so the same retry quota) as long as fewer than 128 other settings were asked for in between by it and others; two clients, or different settings, never share an object.", "quantifier": "every history of requests by any number of clients, with any settings", "why_tests_cant": "The strategies of all clients of a process are in one cache that drops the least recently used; what a client gets depends on the calls of all others.", "anchors": ["packages/smithy-core/src/smithy_core/aio/retries.py:RetryStrategyResolver", "codegen/core/src/main/java/software/amazon/smithy/python/codegen/ClientGenerator.java:generateOperationExecutor"]}
{"id": "C104", "title": "Calls do not change the client or each other", "statement": "Every call of an operation starts with the client's configuration as it was when the client was made. However calls overlap, and whatever their plugins, interceptors, resolvers and transports do with the configuration of their call, they change neither the client's configuration nor that of another call, except for the objects that copies of a configuration share.", "quantifier": "every configuration (any graph of objects), any number of calls, every interleaving, every change a call can make to what it can reach", "why_tests_cant": "Isolation is a statement about all graphs of objects that a configuration can hold and all interleavings of calls.", "anchors": ["codegen/core/src/main/java/software/amazon/smithy/python/codegen/ClientGenerator.java:generateOperationExecutor", "codegen/core/src/main/java/software/amazon/smithy/python/codegen/ClientGenerator.java:generateService", "packages/smithy-core/src/smithy_core/aio/retries.py:SimpleRetryStrategy.__deepcopy__", "packages/smithy-core/src/smithy_core/aio/retries.py:StandardRetryStrategy.__deepcopy__", "packages/smithy-http/src/smithy_http/aio/crt.py:AWSCRTHTTPClient.__deepcopy__", "packages/smithy-http/src/smithy_http/aio/aiohttp.py:AIOHTTPClient.__deepcopy__"]}
{"id": "C105", "title": "What the calls of a client have in common", "statement": "All calls of a client use the client's own retry strategy, and so one retry quota; with aiohttp they use one connector and its connections. The CRT client of a call has the client's event loop but starts without connections. Whatever a call has stored elsewhere in its configuration, such as credentials a resolver has found, is not seen by later calls.", "quantifier": "every configuration, any number of calls before, every interleaving", "why_tests_cant": "Whether something is shared depends on the graph of objects of the configuration and on what earlier calls did.", "anchors": ["packages/smithy-core/src/smithy_core/aio/retries.py:StandardRetryStrategy.__deepcopy__", "packages/smithy-http/src/smithy_http/aio/crt.py:AWSCRTHTTPClient.__deepcopy__", "packages/smithy-http/src/smithy_http/aio/aiohttp.py:AIOHTTPClient.__deepcopy__", "codegen/core/src/main/java/software/amazon/smithy/python/codegen/ClientGenerator.java:generateOperationExecutor", "packages/smithy-aws-core/src/smithy_aws_core/identity/imds.py:IMDSCredentialsResolver.get_identity"]}
{"id": "C106", "title": "Generated schemas say what the model of the service does", "statement": "For every model of a service, the generated module of schemas can be imported, and has for every shape a schema with its ID, type and traits and a schema for each member in order; the schema of a member has the ID of its shape, its name and place, the type, schema and members of its target, and the traits of the member and, where it has none of the kind, of its target. Following names of members from a schema, any number of steps and through shapes that refer to themselves, gives the schema of the member that the model has there. This does not depend on the order in which shapes and members that refer to later shapes are written.", "quantifier": "every model (any number of shapes and members, any targets, any circles), every order of the shapes, every order of the members that are written last, paths of any length", "why_tests_cant": "Targets that come later or lead back are filled in afterwards in the order of a hash map; that every schema is complete in the end is a statement about all graphs of shapes and all orders.", "anchors": ["codegen/core/src/main/java/software/amazon/smithy/python/codegen/generators/SchemaGenerator.java:generateAll", "codegen/core/src/main/java/software/amazon/smithy/python/codegen/generators/SchemaGenerator.java:writeSchemaMembers", "codegen/core/src/main/java/software/amazon/smithy/python/codegen/generators/SchemaGenerator.java:finalizeRecursiveShapes", "packages/smithy-core/src/smithy_core/schemas.py:Schema.collection", "packages/smithy-core/src/smithy_core/schemas.py:Schema.member", "packages/smithy-core/src/smithy_core/prelude.py"]}
{"id": "C107", "title": "Traits of the model are found by their classes", "statement": "For every model of a service, looking up a trait of a schema by its class gives the trait that the model has for the shape or member, and nothing if the model has none; the stream of an operation's input or output is the first member that streams, and its idempotency token the first member with that trait.", "quantifier": "every model, every trait class of the packages, every shape and member", "why_tests_cant": "Has to hold for every class and every model; a misspelt ID only shows in models that use the trait.", "anchors": ["packages/smithy-core/src/smithy_core/traits.py", "packages/smithy-core/src/smithy_core/schemas.py:Schema.get_trait", "packages/smithy-core/src/smithy_core/schemas.py:APIOperation.idempotency_token_member", "packages/smithy-core/src/smithy_core/schemas.py:APIOperation.input_stream_member", "packages/smithy-aws-core/src/smithy_aws_core/traits.py"]}
{"id": "C108", "title": "Everything in a generated module of types has a name of its own", "statement": "For every service, the classes and functions in the generated module of types (structures, errors, enums, unions, the class for each member of a union, the one for unknown members, deserializers of unions, functions for lists and maps, and the base class of errors) all have different names, whatever the names of shapes and members are and in whatever order they are written. So each name stands for the class it was made for.", "quantifier": "every list of shapes with any names and members, every order of the definitions", "why_tests_cant": "Names of classes for members of unions are joined from two names; that no choice of names of shapes and members makes two of them equal cannot be seen from examples.", "anchors": ["codegen/core/src/main/java/software/amazon/smithy/python/codegen/PythonSymbolProvider.java:collectAllShapeNames", "codegen/core/src/main/java/software/amazon/smithy/python/codegen/PythonSymbolProvider.java:unionShape", "codegen/core/src/main/java/software/amazon/smithy/python/codegen/PythonSymbolProvider.java:memberShape", "codegen/core/src/main/java/software/amazon/smithy/python/codegen/PythonSymbolProvider.java:toSymbol", "codegen/core/src/main/java/software/amazon/smithy/python/codegen/generators/UnionGenerator.java:run", "codegen/core/src/main/java/software/amazon/smithy/python/codegen/generators/ServiceErrorGenerator.java:run"]}
{"id": "C109", "title": "Names in a generated file stand for what they were meant to", "statement": "For every file that is generated, whatever the file defines and imports, each name in it stands for what the generator meant when it wrote it: the definition in the file, the class or function in the other module, the module, or what is built into Python. In particular a shape of the service that has the name of a class of the framework does not take its place, and things with the same name from different modules are kept apart.", "quantifier": "every sequence of symbols, references, plain names, imports and definitions, and every order in which symbols come out of the writer's table", "why_tests_cant": "Names are chosen only when the file is complete, from all that has been used and defined; whether some combination makes two of them clash is a statement about all services.", "anchors": ["codegen/core/src/main/java/software/amazon/smithy/python/codegen/writer/PythonWriter.java:resolveCollisions", "codegen/core/src/main/java/software/amazon/smithy/python/codegen/writer/PythonWriter.java:buildModuleAlias", "codegen/core/src/main/java/software/amazon/smithy/python/codegen/writer/PythonWriter.java:PythonSymbolFormatter", "codegen/core/src/main/java/software/amazon/smithy/python/codegen/writer/ImportDeclarations.java:aliasImport", "codegen/core/src/main/java/software/amazon/smithy/python/codegen/writer/ImportDeclarations.java:addImport"]}
{"id": "C110", "title": "Imports within a generated package reach the module that is meant", "statement": "For every module of a generated package and every module it imports from, inside the package or outside, the module that Python loads for the import statement that is written is the one that was meant.", "quantifier": "every name of the package, of the module with the import and of the other module, with any number of parts", "why_tests_cant": "How many dots are written depends on the parts two names have in common; it has to come out right for all pairs of names of any depth.", "anchors": ["codegen/core/src/main/java/software/amazon/smithy/python/codegen/writer/ImportDeclarations.java:addImport", "codegen/core/src/main/java/software/amazon/smithy/python/codegen/writer/ImportDeclarations.java:relativize"]}
{"id": "C111", "title": "Operations use the auth schemes that the model gives them", "statement": "For every service and each of its operations, a generated client signs requests with the first auth scheme, in the order of priority of the model (the @auth trait of the operation, else that of the service, else all schemes of the service by name), that the client has; it does not sign requests of operations whose @auth trait is empty; schemes set by the caller are used wherever a scheme with their ID was; and operations of services without auth traits can be called.", "quantifier": "every service with any auth traits, every operation, every list of schemes that integrations add, every configuration of resolver and schemes", "why_tests_cant": "Which scheme is chosen depends on the traits of service and operations, the integrations and the configuration together; a wrong choice for some combination sends credentials where they should not go.", "anchors": ["codegen/core/src/main/java/software/amazon/smithy/python/codegen/HttpAuthGenerator.java", "codegen/core/src/main/java/software/amazon/smithy/python/codegen/generators/OperationGenerator.java:writeAuthSchemes", "codegen/core/src/main/java/software/amazon/smithy/python/codegen/generators/ConfigGenerator.java:getAuthProperties", "codegen/core/src/main/java/software/amazon/smithy/python/codegen/generators/ConfigGenerator.java:writeDefaultAuthSchemes", "codegen/core/src/main/java/software/amazon/smithy/python/codegen/ClientGenerator.java:writeSharedOperationInit", "packages/smithy-core/src/smithy_core/auth.py:DefaultAuthResolver", "packages/smithy-core/src/smithy_core/aio/client.py:_resolve_auth"]}
{"id": "C112", "title": "Values of traits and defaults are written as Python expressions that mean them", "statement": "For every node of a Smithy model (null, booleans, numbers, strings, arrays and objects, nested in any way), the Python expression that the generator writes for it is evaluated by Python to the same value, with tuples for arrays and read-only mappings for objects, and it ends where it was meant to.", "quantifier": "every node of any depth, every indentation", "why_tests_cant": "Nodes are nested without bound and hold any strings and numbers; what is written has to be read back the same for all of them.", "anchors": ["codegen/core/src/main/java/software/amazon/smithy/python/codegen/writer/PythonWriter.java:PythonNodeFormatter"]}
{"id": "C113", "title": "What traits say is read from the objects generated for them", "statement": "For every trait with a value for which there is a class (formats of timestamps, faults, media types, JSON and XML names, HTTP headers, queries, prefixes and status codes, method, path and query of operations, host prefixes, API keys, XML namespaces, timeouts, versions of HTTP, names and codes for AWS), each property of the object that generated code makes of the value that the model gives returns what the model says, with Smithy's defaults for what the model leaves out. Traits without a class, and those made by hand, keep their values; values of the wrong kind are refused; and an object of a class can be made from one without.", "quantifier": "every value of every such trait, every ID, every value given to a class", "why_tests_cant": "The values are arbitrary nodes of models, read through literals, constructors and properties; that none of them is lost or changed on the way is a statement about all values.", "anchors": ["packages/smithy-core/src/smithy_core/traits.py", "packages/smithy-aws-core/src/smithy_aws_core/traits.py", "codegen/core/src/main/java/software/amazon/smithy/python/codegen/generators/SchemaGenerator.java:filterTraits", "codegen/core/src/main/java/software/amazon/smithy/python/codegen/generators/SchemaGenerator.java:writeTraits"]}
{"id": "C114", "title": "Clients of DynamoDB have DynamoDB's defaults for retries", "statement": "Whatever the configuration, a generated client of DynamoDB uses a retry strategy that was set, and otherwise the mode and number of attempts that were asked for in options or in the configuration; for what was not asked for in standard mode it makes at most four attempts, and waits at most 25 ms before the first retry, doubling up to 20 s, after errors other than throttling. Clients that share a configuration share the strategy and its quota.", "quantifier": "every configuration (strategy, options, mode, attempts and where they are from), every history of overlapping requests", "why_tests_cant": "Which settings win depends on the combination of five inputs, and the bounds on attempts and waits are about all histories of requests.", "anchors": ["codegen/aws/core/src/main/java/software/amazon/smithy/python/aws/codegen/AwsDynamoDbRetryIntegration.java:DYNAMODB_RETRY_MODULE", "packages/smithy-core/src/smithy_core/aio/retries.py:StandardRetryStrategy", "packages/smithy-core/src/smithy_core/aio/retries.py:RetryStrategyResolver", "codegen/core/src/main/java/software/amazon/smithy/python/codegen/ClientGenerator.java"]}
{"id": "C115", "title": "REST JSON messages carry the members bound to the body", "statement": "For every structure, recursive or not, and every value of it that JSON can carry: the body of a request of the REST JSON protocol is the text of one JSON object that has exactly the members bound to the body, under their JSON names and with their values; and a response, written with the same bindings, is read by the client so that every member bound to the body, and a structured payload, has the value that the service gave, and no other member is read from it.", "quantifier": "every schema, every list of bindings, every value that JSON can carry, with every combination of header, query, label and body members", "why_tests_cant": "Bindings, codec and schemas are tested one by one; that they fit together for all structures and values is a statement about their composition.", "anchors": ["packages/smithy-http/src/smithy_http/serializers.py", "packages/smithy-http/src/smithy_http/deserializers.py", "packages/smithy-json/src/smithy_json/_private/serializers.py", "packages/smithy-json/src/smithy_json/_private/deserializers.py", "packages/smithy-aws-core/src/smithy_aws_core/aio/protocols.py:RestJsonClientProtocol"]}
{"id": "C116", "title": "Documentation becomes a docstring and nothing else", "statement": "Whatever the documentation of a service, shape, member or operation says, the generated module has one string literal in its place, which Python reads without an error or a warning, and the code around it is not affected; the text of the docstring is what the documentation says.", "quantifier": "every text that pandoc may make of documentation, every indentation, every place in a file", "why_tests_cant": "Tests convert a handful of texts; that no text ends the literal early or leaves half an escape sequence is a statement about all of them.", "anchors": ["codegen/core/src/main/java/software/amazon/smithy/python/codegen/writer/MarkdownConverter.java", "codegen/core/src/main/java/software/amazon/smithy/python/codegen/writer/PythonWriter.java:writeDocs", "codegen/core/src/main/java/software/amazon/smithy/python/codegen/ClientGenerator.java:writeSharedOperationInit"]}
{"id": "C117", "title": "The module of a generated client's shapes can be imported", "statement": "Whatever the shapes of a service are, the module that is generated for them can be imported: whenever Python evaluates a name (a decorator, a base class, a default, an annotation, an argument), that name has been defined and stands for what the generator meant. Each class has under the name of a property what was written for that property.", "quantifier": "every model, every order in which its shapes may be generated, every set of recursive shapes, every version of Python (annotations evaluated or not)", "why_tests_cant": "Tests import the modules of a few models; whether a name is defined when it is needed depends on the cycles of the model and on the order of its shapes.", "anchors": ["codegen/core/src/main/java/software/amazon/smithy/python/codegen/generators/StructureGenerator.java", "codegen/core/src/main/java/software/amazon/smithy/python/codegen/generators/UnionGenerator.java", "codegen/core/src/main/java/software/amazon/smithy/python/codegen/generators/ListGenerator.java", "codegen/core/src/main/java/software/amazon/smithy/python/codegen/generators/MapGenerator.java", "codegen/core/src/main/java/software/amazon/smithy/python/codegen/generators/OperationGenerator.java", "codegen/core/src/main/java/software/amazon/smithy/python/codegen/DirectedPythonClientCodegen.java"]}
{"id": "C118", "title": "A client's configuration holds what it is given", "statement": "The configuration of a generated client takes exactly the settings that its protocol, the auth traits of the service and the plugins of integrations ask for. Each argument becomes the attribute of its name, the same object; settings that are not given, or given as None, have their default or are None; those not declared as nullable are never None. Defaults are new objects, so that configurations share nothing but what was given to them, and setting an auth scheme on one does not change others. The module with the configuration can be imported, and holds the texts of the model as they are.", "quantifier": "every service (protocol, versions of HTTP, streams, auth traits, operations), every list of plugins with any properties and schemes, every arguments and objects that exist before", "why_tests_cant": "Which settings there are and what becomes of them depends on the service, all plugins, and the arguments together; that nothing is shared is a statement about all objects.", "anchors": ["codegen/core/src/main/java/software/amazon/smithy/python/codegen/generators/ConfigGenerator.java", "codegen/core/src/main/java/software/amazon/smithy/python/codegen/ConfigProperty.java", "codegen/core/src/main/java/software/amazon/smithy/python/codegen/integrations/HttpApiKeyAuth.java", "codegen/aws/core/src/main/java/software/amazon/smithy/python/aws/codegen/AwsAuthIntegration.java", "codegen/aws/core/src/main/java/software/amazon/smithy/python/aws/codegen/AwsStandardRegionalEndpointsIntegration.java", "codegen/aws/core/src/main/java/software/amazon/smithy/python/aws/codegen/AwsUserAgentIntegration.java"]}
{"id": "C119", "title": "What a generated class writes it reads back", "statement": "For every model of a service, every generated class of a structure or union and every instance of it, of any depth and through shapes that refer to themselves: serialize() makes, for each attribute that is not None, in the order of the model, one call of the method for the type of the member, with the member's own schema and the value, for each element of a list and each entry of a map one call in order (write_null for None), and for a union one call for the member that is set. With the JSON codec the result is one JSON text, and deserialize() of the class on it gives an equal instance.", "quantifier": "every model of a service, every class in it, every instance", "why_tests_cant": "Models and values are unbounded, and refer to themselves; that serializers and deserializers which are generated separately agree is a statement about all of them.", "anchors": ["codegen/core/src/main/java/software/amazon/smithy/python/codegen/generators/MemberSerializerGenerator.java", "codegen/core/src/main/java/software/amazon/smithy/python/codegen/generators/MemberDeserializerGenerator.java", "codegen/core/src/main/java/software/amazon/smithy/python/codegen/generators/StructureGenerator.java", "codegen/core/src/main/java/software/amazon/smithy/python/codegen/generators/UnionGenerator.java", "codegen/core/src/main/java/software/amazon/smithy/python/codegen/generators/ListGenerator.java", "codegen/core/src/main/java/software/amazon/smithy/python/codegen/generators/MapGenerator.java"]}
{"id": "C120", "title": "Unions from newer services are read as unknown", "statement": "If a service sends a union with a member that the client does not know, the client gets an instance of the class for unknown members of the union, with the name of the member; further members that it does not know do not change what is read for one that it knows.", "quantifier": "every model of a service, every union in it, every JSON object", "why_tests_cant": "Which names a later version of a service uses is not known; their values are any JSON values.", "anchors": ["codegen/core/src/main/java/software/amazon/smithy/python/codegen/generators/UnionGenerator.java", "packages/smithy-json/src/smithy_json/_private/deserializers.py:JSONShapeDeserializer.read_struct"]}
{"id": "C121", "title": "What a generated class reads from any JSON text", "statement": "For every generated class of a structure or union and every JSON text, also one that no client of the same version would write, deserialize() succeeds exactly if the values given for the members are ones that the codec can read for their shapes, and the result is determined by the model alone: the members are found by their names in JSON, others are ignored, null is as if the member was not there unless it is a document, the last of several values counts, members that are missing get their default or, if required, the value that error correction has for them, null in a list or map is None if it is sparse and left out if not, and a union needs a value for exactly one of its members. The order of members in an object does not matter.", "quantifier": "every model of a service, every class in it, every JSON value of any depth", "why_tests_cant": "What other versions of a service send is any JSON text; the texts and the models are unbounded.", "anchors": ["codegen/core/src/main/java/software/amazon/smithy/python/codegen/generators/MemberDeserializerGenerator.java", "codegen/core/src/main/java/software/amazon/smithy/python/codegen/generators/StructureGenerator.java", "codegen/core/src/main/java/software/amazon/smithy/python/codegen/generators/UnionGenerator.java", "codegen/core/src/main/java/software/amazon/smithy/python/codegen/generators/ListGenerator.java", "codegen/core/src/main/java/software/amazon/smithy/python/codegen/generators/MapGenerator.java", "packages/smithy-json/src/smithy_json/_private/deserializers.py:JSONShapeDeserializer"]}
{"id": "C122", "title": "Credentials of instances and containers are those the metadata service sent", "statement": "get_identity of the resolver for instances returns credentials that an earlier call returned and that have not expired, without asking for anything; or those that the answer to its last request says: the keys, the session token, the account and the expiration under their names, of the role that is configured or that the service named. The resolvers for instances and for containers accept exactly the same answers: JSON objects with both keys. The expiration is the instant that the answer gives. In every history of calls, every request goes to the configured endpoint and is one for a token with the configured lifetime, or has the token given out last, which is younger than its lifetime. Configurations are refused unless the lifetime is between 5 and 21600 seconds. Answers that are errors are not taken for tokens, roles or credentials.", "quantifier": "every configuration, every sequence of calls, every sequence of answers and exceptions, every course of the clock, every JSON value as an answer", "why_tests_cant": "Answers, failures and the points at which tokens and credentials expire between calls form unboundedly many histories.", "anchors": ["packages/smithy-aws-core/src/smithy_aws_core/identity/imds.py:Config", "packages/smithy-aws-core/src/smithy_aws_core/identity/imds.py:TokenCache", "packages/smithy-aws-core/src/smithy_aws_core/identity/imds.py:EC2Metadata.get", "packages/smithy-aws-core/src/smithy_aws_core/identity/imds.py:IMDSCredentialsResolver.get_identity", "packages/smithy-aws-core/src/smithy_aws_core/identity/container.py:ContainerCredentialsResolver.get_identity"]}
{"id": "C123", "title": "A configuration is resolved from one reading of the right files", "statement": "The config and credentials files are those given as arguments, else those in AWS_CONFIG_FILE and AWS_SHARED_CREDENTIALS_FILE, else ~/.aws/config and ~/.aws/credentials, with the home directory of the user in place of a tilde at the beginning. However the files change in the meantime, resolving a configuration reads each of them at most once, the config file first, and its settings are all those of what was read then; files that are missing or cannot be read count as empty. Profiles that are asked for again on the same context are the same, and nothing is read again, even if they are asked for at the same time.", "quantifier": "every argument, environment, home directory, every course of the contents of files, every set of overrides, every number and interleaving of calls", "why_tests_cant": "Files change between any two reads, and calls interleave in unboundedly many ways; paths are arbitrary texts.", "anchors": ["packages/smithy-aws-core/src/smithy_aws_core/config/context.py:_resolve_config_paths", "packages/smithy-aws-core/src/smithy_aws_core/config/context.py:load_config", "packages/smithy-aws-core/src/smithy_aws_core/config/context.py:SharedConfigContext.parsed_profiles", "packages/smithy-aws-core/src/smithy_aws_core/config/filesystem.py:DefaultFileSystem.read_file", "packages/smithy-aws-core/src/smithy_aws_core/config/aws_config.py:AsyncAwsConfig.resolve"]}
{"id": "C124", "title": "Every change that is written down gets into exactly one release", "statement": "After any number of runs of new-entry and new-release, every change that was given to new-entry, with its type and description, either still waits or is in the file of exactly one release, and there is nothing else in either place. A release that is made has all the changes that waited, by their types and the earlier ones first in each, and leaves none waiting; one that is refused or only tried changes nothing. A release is refused exactly if its version is not three numbers, nothing waits, something that waits is not a change with a type and a description, or there is one of that version. If scripts are killed at any moment then no change is lost.", "quantifier": "every number and order of runs of the scripts, every version, type, description, order of files, and every moment at which a script is killed", "why_tests_cant": "Histories of scripts, crash points and schedules are unbounded.", "anchors": ["scripts/changelog/new-entry.py:create_change_entry", "scripts/changelog/new-release.py:collect_changes", "scripts/changelog/new-release.py:create_version_file", "scripts/changelog/new-release.py:cleanup_next_release", "scripts/changelog/new-release.py:create_new_release"]}
{"id": "C125", "title": "The changelog has every release, the newest first", "statement": "The changelog of a package has exactly the releases that are there, each once, none before a newer one by the numbers of their versions, and of each of them the changes of the five types under the headings of these, in the order of the file. So every change that was written down either waits, or is in the changelog once.", "quantifier": "every set of files of releases, order of files, and every history of scripts", "why_tests_cant": "The number of releases, the size of versions and the order of files are unbounded.", "anchors": ["scripts/changelog/render.py:get_sorted_versions", "scripts/changelog/render.py:load_package_releases", "scripts/changelog/render.py:render_package_changelog", "scripts/changelog/templates/PACKAGE"]}
{"id": "C126", "title": "A package of types has a class for every type that was selected and for all it needs", "statement": "When a package of types is generated from a model without a service, there is a class for every structure, union, enum and int enum that the selector selects, except those of Smithy itself, traits, mixins and private shapes, and, unless they are asked for, inputs and outputs. There are no other classes than those and the ones they need through their members, whatever a class needs has a class too, and every class has its schema.", "quantifier": "every model, selector and settings, and whichever of several shapes with one id Smithy keeps", "why_tests_cant": "Models and selections are unbounded, and what is lost depends on the order and the traits of all shapes before.", "anchors": ["codegen/plugins/types/src/main/java/software/amazon/smithy/python/codegen/types/CreateSyntheticService.java:transform", "codegen/plugins/types/src/main/java/software/amazon/smithy/python/codegen/types/CreateSyntheticService.java:shouldGenerate", "codegen/plugins/types/src/main/java/software/amazon/smithy/python/codegen/types/DirectedPythonTypeCodegen.java:shouldGenerateStructure", "codegen/plugins/types/src/main/java/software/amazon/smithy/python/codegen/types/DirectedPythonTypeCodegen.java:customizeBeforeShapeGeneration", "codegen/plugins/types/src/main/java/software/amazon/smithy/python/codegen/types/PythonTypeCodegenSettings.java:toPythonSettings", "codegen/plugins/types/src/main/java/software/amazon/smithy/python/codegen/types/PythonTypeCodegenPlugin.java:execute"]}
{"id": "C127", "title": "A generated package requires everything its code uses", "statement": "However many parts of the generated code ask for a package, the project file requires it once for each purpose, in the version that all of them ask for, with every extra that any of them asks for and no other; the packages are in the order of their names, and nothing else is required. If two parts ask for different versions then nothing is generated. A line of the project file is read as a requirement of just that package, those extras and that version or link.", "quantifier": "every list of dependencies in every order", "why_tests_cant": "Dependencies come from any number of writers and integrations, and merging them depends on the order and the extras of all.", "anchors": ["codegen/core/src/main/java/software/amazon/smithy/python/codegen/generators/SetupGenerator.java:gatherDependencies", "codegen/core/src/main/java/software/amazon/smithy/python/codegen/generators/SetupGenerator.java:writeDependencyList", "codegen/core/src/main/java/software/amazon/smithy/python/codegen/PythonDependency.java:getDependency"]}
{"id": "C128", "title": "Requests to API Gateway say that they accept JSON, unless the user says otherwise", "statement": "A request of a client of API Gateway that has no Accept header, in whatever case, is given the header Accept: application/json before it is signed; one that has it keeps it, and all other headers stay as they are and in their order. It makes no difference how often the plugin was applied to the configuration. Clients of other services do not do this.", "quantifier": "every sequence of operations on the headers before, every number of applications, every service", "why_tests_cant": "Headers can be set by any interceptor and serializer in any case and order.", "anchors": ["codegen/aws/core/src/main/java/software/amazon/smithy/python/aws/codegen/customizations/apigateway/ApiGatewayIntegration.java:ACCEPT_HEADER_MODULE", "codegen/aws/core/src/main/java/software/amazon/smithy/python/aws/codegen/customizations/apigateway/ApiGatewayIntegration.java:getClientPlugins"]}
{"id": "C129", "title": "The caller of an operation gets the output that the service returned", "statement": "For every operation of a service with the REST JSON protocol and every output that its class can hold: the response written for it with the HTTP bindings of its members, some in headers, one as the status, prefix headers, a payload and the others in a JSON body, is read by the generated class on the client's side, from the body or from the stream of it, as an equal output.", "quantifier": "every model of a service, every class, every HTTP binding of its members, every value, every status of the operation", "why_tests_cant": "Generated classes, bindings, header texts and JSON are unbounded in size and combination, and each is written apart from what reads it.", "anchors": ["codegen/core/src/main/java/software/amazon/smithy/python/codegen/generators/MemberSerializerGenerator.java", "codegen/core/src/main/java/software/amazon/smithy/python/codegen/generators/MemberDeserializerGenerator.java", "codegen/core/src/main/java/software/amazon/smithy/python/codegen/generators/StructureGenerator.java", "packages/smithy-http/src/smithy_http/serializers.py:HTTPResponseSerializer", "packages/smithy-http/src/smithy_http/deserializers.py:HTTPResponseDeserializer", "packages/smithy-aws-core/src/smithy_aws_core/aio/protocols.py:RestJsonClientProtocol"]}
{"id": "C130", "title": "The request of an operation carries its input", "statement": "For every operation of a service with the REST JSON protocol and every input that its class can hold: there is a request exactly if all labels of the URI have values and no segment of the path is empty in front of another; its path has the segments of the pattern with the labels filled in, its query is that of the operation followed by the parameters bound to the query and the entries of maps bound to it, its headers have the values bound to them, among them the entries of maps bound to headers with a prefix, and its body is a JSON document from which all other attributes are read back, equal to those of the input; or, if a member is the payload, the bytes of that blob, the text of that string or enum, or a document from which that value is read back. There are a content type and a content length exactly if there is a body or a payload, the content type being that of its media type if it has one.", "quantifier": "every model of a service, every class, every HTTP binding of its members, every value, every pattern and query of a URI", "why_tests_cant": "Generated classes, bindings, URIs, texts and JSON are unbounded in size and combination, and each part of the request is written by another serializer.", "anchors": ["codegen/core/src/main/java/software/amazon/smithy/python/codegen/generators/MemberSerializerGenerator.java", "codegen/core/src/main/java/software/amazon/smithy/python/codegen/generators/StructureGenerator.java", "packages/smithy-http/src/smithy_http/serializers.py:HTTPRequestSerializer", "packages/smithy-http/src/smithy_http/serializers.py:HTTPRequestBindingSerializer", "packages/smithy-http/src/smithy_http/serializers.py:HTTPQuerySerializer", "packages/smithy-http/src/smithy_http/serializers.py:HTTPQueryMapSerializer", "packages/smithy-http/src/smithy_http/serializers.py:HTTPPathSerializer", "packages/smithy-http/src/smithy_http/serializers.py:HTTPHeaderSerializer", "packages/smithy-aws-core/src/smithy_aws_core/aio/protocols.py:RestJsonClientProtocol", "packages/smithy-http/src/smithy_http/serializers.py:HTTPHeaderMapSerializer"]}
{"id": "C131", "title": "Callers get what the service answers: the output or the error", "statement": "For every operation of a service with the REST JSON protocol: whoever calls it gets an output equal to that of the service if the status of the response means success, and otherwise, if the response names an error in x-amzn-errortype (or, without that header and with the content type application/json, as __type or else code of the body), an error of the class that is registered for it (or, if there is none, of the first error of the operation with that name), equal to that of the service and with the delay the response asks for. Other headers do not matter, nor do members of the body that the class does not have. The status is that of the error or the operation unless a member has it.", "quantifier": "every model of a service, every class and HTTP binding, every value, every registry of classes, every form and place of the code, every set of further headers and of further members of the body", "why_tests_cant": "Classes, bindings, values, registries and codes are unbounded; the answer depends on all of them and on two different serializers and deserializers agreeing.", "anchors": ["packages/smithy-http/src/smithy_http/aio/protocols.py:HttpBindingClientProtocol.deserialize_response", "packages/smithy-http/src/smithy_http/aio/protocols.py:HttpBindingClientProtocol._create_error", "packages/smithy-aws-core/src/smithy_aws_core/aio/protocols.py:AWSErrorIdentifier", "packages/smithy-http/src/smithy_http/serializers.py:HTTPResponseSerializer", "packages/smithy-http/src/smithy_http/deserializers.py:HTTPResponseDeserializer", "codegen/core/src/main/java/software/amazon/smithy/python/codegen/generators/StructureGenerator.java"]}
{"id": "C132", "title": "Callers of AWS Query operations get what the service answers", "statement": "For every operation of a service with the AWS Query protocol: whoever calls it gets an output equal to that of the service if the status of the response means success and the response has it in NameResult in NameResponse (in NameResponse alone if the output has no members), and otherwise, if the response has an error in Error in ErrorResponse, an error of the class that its Code stands for (the first error of the operation with that code, or else the shape of that name), equal to that of the service and with the delay the response asks for. Elements that the client does not know do not matter, wherever they are.", "quantifier": "every model of a service, every class, every value, every registry of classes, every code, every set of further elements of any depth, every namespace of elements", "why_tests_cant": "Classes, values, registries and documents are unbounded, and three parts (the reader of XML, generated classes, the choice of the error) have to agree on each.", "anchors": ["packages/smithy-aws-core/src/smithy_aws_core/aio/protocols.py:AwsQueryClientProtocol.deserialize_response", "packages/smithy-aws-core/src/smithy_aws_core/_private/query/errors.py:create_aws_query_error", "packages/smithy-xml/src/smithy_xml/_private/deserializers.py:XMLShapeDeserializer", "codegen/core/src/main/java/software/amazon/smithy/python/codegen/generators/StructureGenerator.java", "codegen/core/src/main/java/software/amazon/smithy/python/codegen/generators/StructureGenerator.java:DeserializerGenerator"]}
{"id": "C133", "title": "Services get what callers of AWS Query operations give", "statement": "For every operation of a service with the AWS Query protocol and every input: the body of the request has parameters from which a service that looks for them by name, in whatever order they come, gets the action, the version and the input that the caller gave, with the names of its model (@xmlName of a member, or else its name). Inputs that give the same request are equal.", "quantifier": "every model of a service, every input of any depth, every action and version, every order of the parameters", "why_tests_cant": "Models, inputs and orders are unbounded, and generated serializers, schemas and the serializer of the protocol have to agree on each.", "anchors": ["packages/smithy-aws-core/src/smithy_aws_core/aio/protocols.py:AwsQueryClientProtocol.serialize_request", "packages/smithy-aws-core/src/smithy_aws_core/_private/query/serializers.py:QueryShapeSerializer", "codegen/core/src/main/java/software/amazon/smithy/python/codegen/generators/StructureGenerator.java", "packages/smithy-core/src/smithy_core/schemas.py:Schema"]}
{"id": "C134", "title": "Generated enums have the members of the model", "statement": "For every enum of a model, of texts or of whole numbers: the module with the class that is generated for it can be imported, the class has one member for each member of the model, in the same order, with its name in capitals and its value, the attribute with that name is the member that the class gives for that value, and for all other values of the type the class gives an instance that says it is unknown.", "quantifier": "every enum of any number of members, every name and value, every value that a service sends", "why_tests_cant": "Names, values and numbers of members are unbounded, and names are converted by the generator and given a meaning by Python and its enum module.", "anchors": ["codegen/core/src/main/java/software/amazon/smithy/python/codegen/generators/EnumGenerator.java:run", "codegen/core/src/main/java/software/amazon/smithy/python/codegen/generators/IntEnumGenerator.java:run", "codegen/core/src/main/java/software/amazon/smithy/python/codegen/PythonSymbolProvider.java:toMemberName", "packages/smithy-core/src/smithy_core/types.py:UnknownEnumMixin"]}
{"id": "C135", "title": "AWS clients are found under their names, those published before also under their old ones", "statement": "The class of the client of an AWS service is called Async, the words of the SDK ID with a capital first, and Client; this is a name that Python accepts, and two SDK IDs share it only if they are the same but for spaces and the case of the first letter. The generated module has the class under that name without a warning. For the seven clients that were published before, the name without Async gives the same class and one DeprecationWarning with both names; any other name is an AttributeError.", "quantifier": "every SDK ID of any number and length of words, every set of other names in the module, every name that is asked for", "why_tests_cant": "SDK IDs, the imports of the module and the names asked for are unbounded; tests look at two SDK IDs and do not run the generated module.", "anchors": ["codegen/aws/core/src/main/java/software/amazon/smithy/python/aws/codegen/AwsServiceIdIntegration.java:ServiceIdSymbolProvider", "codegen/core/src/main/java/software/amazon/smithy/python/codegen/ClientGenerator.java:generateService"]}
{"id": "C136", "title": "The HTTP client for tests answers in order and records what it was sent", "statement": "However queueing responses and sending requests follow each other, each request gets the first queued response that no request has got, with its status, headers and body, and an error exactly if there is none. Every request is recorded, also one that got the error, in the order of sending, and what a test sees of a recorded request is what was sent.", "quantifier": "every history of added responses, sent requests and changes of fields, of any length", "why_tests_cant": "Histories are unbounded; the tests of the client look at one or two responses and do not change a request after sending it.", "anchors": ["packages/smithy-http/src/smithy_http/testing/mockhttp.py:MockHTTPClient"]}
{"id": "C137", "title": "The requirements of a generated package are those of its code", "statement": "Whatever dependencies the generated code uses and in whatever order, generation fails exactly if two uses of one kind (code or tests) ask for different versions of a package. Otherwise the requirements of each kind name every package that is used, once, in order, with the version and all of the extras that uses ask for and no others, and an installer that reads the array in pyproject.toml reads these requirements.", "quantifier": "every list of dependencies, in any order, with any extras and versions", "why_tests_cant": "Any number of symbols may use a package with different extras, in any order; tests generate a few packages.", "anchors": ["codegen/core/src/main/java/software/amazon/smithy/python/codegen/generators/SetupGenerator.java:gatherDependencies", "codegen/core/src/main/java/software/amazon/smithy/python/codegen/generators/SetupGenerator.java:writeDependencyList", "codegen/core/src/main/java/software/amazon/smithy/python/codegen/PythonDependency.java:PythonDependency"]}
{"id": "C138", "title": "Generated code is in Python packages", "statement": "Whatever files the generators write, every directory of Python code in the generated package has an __init__.py, no file loses what was written to it, nothing else is written, and the package says its version. A module name is accepted exactly if it can be imported.", "quantifier": "every set of files that generators and integrations write, with any content and files that are there before, and every module name", "why_tests_cant": "Files depend on the model and the integrations; tests generate the same two or three directories.", "anchors": ["codegen/core/src/main/java/software/amazon/smithy/python/codegen/generators/InitGenerator.java:run", "codegen/core/src/main/java/software/amazon/smithy/python/codegen/DirectedPythonClientCodegen.java:customizeBeforeIntegrations", "codegen/core/src/main/java/software/amazon/smithy/python/codegen/PythonSettings.java:PythonSettings"]}
{"id": "C139", "title": "The default plugins of clients and operations are those that say they apply", "statement": "A plugin of the code generator applies to the services or operations that the last of the methods called on its builder names, never to a client and its operations too, and a copy of it applies to the same. Whatever plugins integrations have, the generated constructor of a client and each of its operations run the callables of exactly those that apply, each once, in the order of integrations, and the files they need are written.", "quantifier": "every history of calls of the builder, every list of integrations with any plugins, every service and operation", "why_tests_cant": "Integrations are found at build time and can have any predicates; no test of the repository has a plugin for operations.", "anchors": ["codegen/core/src/main/java/software/amazon/smithy/python/codegen/integrations/RuntimeClientPlugin.java:Builder", "codegen/core/src/main/java/software/amazon/smithy/python/codegen/ClientGenerator.java:generateService", "codegen/core/src/main/java/software/amazon/smithy/python/codegen/ClientGenerator.java:writeSharedOperationInit", "codegen/core/src/main/java/software/amazon/smithy/python/codegen/integrations/PythonIntegration.java:generatePluginFiles"]}
{"id": "C140", "title": "Generated tests of requests pass exactly for the requests that their test cases describe", "statement": "The test that is generated from a test case of a protocol passes for a request exactly if the method, path and host are those of the case, each expected segment of the query is there as often as expected, no forbidden parameter is, required parameters are there as often as they are listed, headers have the values that are expected, forbidden headers are absent, required ones present, and the body is equal for its media type.", "quantifier": "every test case and every request that a client makes", "why_tests_cant": "These are the tests: whether they report every wrong request, and no right one, is a statement about all requests.", "anchors": ["codegen/core/src/main/java/software/amazon/smithy/python/codegen/HttpProtocolTestGenerator.java:generateRequestTest", "codegen/core/src/main/java/software/amazon/smithy/python/codegen/HttpProtocolTestGenerator.java:writeExpectedHeaders"]}
{"id": "C141", "title": "Generated tests expect of a header the values that its text stands for", "statement": "When a header of a test case is bound to a list, the values that the generated test expects are those that the client's field has if it is written as the text of the test case: as many, in the order of the list, quotes and escapes removed, HTTP dates not cut at their commas. Of a list with one element, that element only.", "quantifier": "every list of values that are quoted or have no blanks around them, every list of HTTP dates", "why_tests_cant": "Tests of protocols are generated with this parser; a value that it reads wrongly makes the test of right clients fail, or that of wrong clients pass, for texts that no test case has yet.", "anchors": ["codegen/core/src/main/java/software/amazon/smithy/python/codegen/HttpProtocolTestGenerator.java:splitHeaders", "codegen/core/src/main/java/software/amazon/smithy/python/codegen/HttpProtocolTestGenerator.java:parseEntry", "packages/smithy-http/src/smithy_http/__init__.py:Field.as_string"]}
{"id": "C142", "title": "Generated tests compare bodies as their media type says", "statement": "If a test case has a body, the generated test passes exactly for requests whose body is the same for its media type: of JSON the same value, of forms the same parameters, each as often, in any order and also if they are empty, of all others the same text. If it has none, nothing is asserted of the body.", "quantifier": "every media type, every body of a test case and of a request", "why_tests_cant": "These are the tests; what they accept is a statement about all bodies.", "anchors": ["codegen/core/src/main/java/software/amazon/smithy/python/codegen/HttpProtocolTestGenerator.java:compareMediaBlob", "codegen/core/src/main/java/software/amazon/smithy/python/codegen/HttpProtocolTestGenerator.java:writeRequestBodyComparison"]}
{"id": "C143", "title": "Every test case of a protocol that clients have to meet has a generated test that runs", "statement": "For each operation of a service, a test is generated for exactly the test cases of requests, responses and errors that are of the protocol and not for servers only, and all of the tests run: none is replaced by another of the same name.", "quantifier": "every list of operations with any test cases and errors", "why_tests_cant": "A test that is replaced by another of the same name is not missed by anyone; that none is depends on all ids and names in a model.", "anchors": ["codegen/core/src/main/java/software/amazon/smithy/python/codegen/HttpProtocolTestGenerator.java:generateOperationTests", "codegen/core/src/main/java/software/amazon/smithy/python/codegen/HttpProtocolTestGenerator.java:writeTestBlock"]}
{"id": "C144", "title": "Generated tests of responses pass exactly for clients that read what their test cases describe", "statement": "The test that is generated from a test case of a response passes exactly if the client returns an object whose members have the expected values, and whose stream, if it has one, has the expected content. That of an error passes exactly if the client raises the exception of that error, with the expected members.", "quantifier": "every set of members, every value that a client returns and exception that it raises, every name of an error", "why_tests_cant": "These are the tests; whether they report every wrong client, and no right one, is a statement about all clients and models.", "anchors": ["codegen/core/src/main/java/software/amazon/smithy/python/codegen/HttpProtocolTestGenerator.java:assertResponseEqual", "codegen/core/src/main/java/software/amazon/smithy/python/codegen/HttpProtocolTestGenerator.java:generateErrorResponseTest", "codegen/core/src/main/java/software/amazon/smithy/python/codegen/PythonSymbolProvider.java:getDefaultShapeName"]}
{"id": "C145", "title": "The values that generated tests use have the contents of the test case and the types of the client", "statement": "For every value of a test case that the model accepts for a shape, the generator of tests writes a Python value with the same content, and it is of the type that the generated client has for that shape, at every depth: documents are objects of the class of documents, members of unions are of the class of that member, enums of their class.", "quantifier": "every environment of shapes, also recursive ones, every node that is valid for a shape, of any depth", "why_tests_cant": "A test uses one model and a few values; shapes nest without bound, and a wrong type is hidden where the combination of shapes does not occur.", "anchors": ["codegen/core/src/main/java/software/amazon/smithy/python/codegen/HttpProtocolTestGenerator.java:ValueNodeVisitor"]}
