# Formal model of smithy-python

This directory holds a Lean 4 model of the runtime packages of smithy-python
(`/repo/packages/*`) and proofs of the properties listed in `properties.jsonl`.
`MANIFEST.json` maps each property to its theorems.

## Method

* Every modelled Python function is a small total Lean function that follows the
  source branch by branch. Exceptions are values (`Except Err a`). Its doc comment cites the
  file and lines it models and names every simplification.
* Objects with state become `step : State -> Op -> State x Out`; a property of "every history"
  is proved by induction over the list of operations. Concurrency is modelled by splitting
  each method at the points where the Python code can be interrupted (bytecode-level for
  threads, `await` points for asyncio) and quantifying over all schedules.
* Each area `X` has `Verif/X/Model.lean` (the code), optionally `Verif/X/Spec.lean` (a small
  independent specification), `Verif/X/Lemmas.lean` (helper lemmas) and `Verif/X/Props.lean`
  (property theorems only, named `Cnn_...`, with non-vacuity examples beside them).
* Where the code does not satisfy a property, the model keeps the behaviour of the code, the
  negation is proved with a concrete witness (`Cnn_..._fails`), and what does hold is proved as
  `..._partial`. These findings are listed under "Disagreements".

## Plan per property

| id | model | proof |
|----|-------|-------|
| C01 | event frame encoder/decoder over `List UInt8`, CRC-32 defined bit by bit | induction over header list; big-endian integer lemmas; utf-8 as parameterless core `String` codec |
| C02 | binary64 rounding of rationals for the two timestamp conversions | witness for the failure; exactness for whole seconds |
| C03 | same decoder | inversion of the decoder |
| C04 | CRC-32 as a linear map over GF(2) | linearity + injectivity of the shift register |
| C05 | decoder iterated over a source | induction over the messages; prefix analysis |
| C06 | encoder | inversion of the encoder |
| C07 | encoder state machine, decoder | induction over calls / header block |
| C08 | header decoder | witness for the failure on truncated values; partial under "no truncation" |
| C09, C10 | publisher/receiver as state machines over an abstract writer/source | induction over histories |
| C11 | signer with the MAC as a parameter | induction over payloads |
| C12 | quota with micro-steps per thread | invariant over all interleavings |
| C13-C15 | retry strategies; delays over the rationals | induction over error sequences; arithmetic |
| C16, C17 | readers over lists of chunks | refinement to a cursor over the concatenation |
| C18, C19 | asyncio scheduler with condition-variable queue | invariant over schedules; deadlock witness |
| C20-C24 | interceptor chain and request pipeline over an event trace | induction over interceptors / attempts |
| C25 | `Fields` as an association list | refinement to a map |
| C26 | quoting and splitting over `List Char` | induction over characters |
| C27, C28 | percent-encoding and path/query assembly | induction; decode is a left inverse |
| C29 | binding matchers, request and response serializers | location by cases against a precedence list; contents of each location by induction over the writes |
| C67 | content headers of the request serializer | cases over the kinds of payload; witnesses where false |
| C68 | query serializers | witness that it is false |
| C30 | sanitizer | characterisation per character |
| C31 | API key signer | witness for the failure; partial for the header location |
| C32 | error creation | decision logic |
| C33-C35 | SigV4 canonicalisation, hash and MAC as parameters | sorting and permutation lemmas |
| C36 | both dot-segment functions | induction; reference algorithm of RFC 3986 as spec |
| C37 | ShapeID | round trip |
| C38 | Schema.member/get_trait | map lemmas |
| C39 | Document with lazily converted value | witness for the failure; partial for top-level updates |
| C40, C41 | registries, property bag | refinement to maps |
| C42-C44 | JSON writer; parser written as spec | round trip by induction |
| C45 | XML event skipping | induction over element trees |
| C46 | query serializer | induction over value trees |
| C47-C49 | config parser, merge, resolution | per-line simulation, precedence by cases |
| C50-C54 | identity caching and chains | induction over histories, permutations |
| C55-C59 | small parsers | characterisation theorems |
| C60 | retry loop with a seekable body | induction over attempts |
| C61, C62 | event frame decoder and header encoder | witnesses of the failures; inversion of decoder and encoder |
| C63 | publisher with any number of calls in progress | invariant over all interleavings; witness of the failure |
| C64 | quota shared by all requests of a strategy, and by threads: `Retry/QuotaThreads.lean` | potential function over the history, and over all interleavings |
| C65, C66 | request pipeline over an event trace | Hoare-style induction over the steps |
| C69 | REST-JSON error information | decision logic over the parsed body |
| C70 | setting the endpoint of a request | witness that it is false |
| C71 | regular expressions of hosts, decided by derivatives | language equality with the grammar of RFC 3986 |
| C72 | text of a URI; a reference parser as spec | round trip |
| C73, C74 | canonical requests and the whole of `sign` over a heap of objects | injectivity; refinement to the signing function on values |
| C75-C77 | timestamp formats, down to the calendar arithmetic of `datetime` | round trips through days since year 1; error bounds of float rounding |
| C78 | header values, scalar by scalar and as lists | round trips |
| C79 | reading a response, member by member | decision logic: both directions for every location |
| C80 | serializer and deserializer of responses together | round trip on top of C29 and C79 |
| C81 | events of unions to messages and back | round trip through the frame, on top of C01 |
| C82, C83 | documents made of shapes, with the serializers' shared state | round trip by mutual induction over values; equality of traces of calls |
| C84 | documents read from JSON as shapes | round trip on top of C43 |
| C85, C86 | opening and closing event streams: caller, executing task and service interleaved | invariant over all interleavings, states in which nothing goes on, decreasing measure |
| C87 | bodies as the transports read them | induction over reads, on top of C16 |
| C88 | query and headers that aiohttp is handed | multiset equality through the grouping, on top of C34; round trip of headers |
| C89 | request that the CRT is handed | characterisation per header name |
| C90 | connection pool with any number of sends | invariant over all interleavings |
| C91 | `urlparse` and the endpoint resolvers | round trip from the parts of an endpoint; all texts for the host |
| C92 | the XML deserializer against a writer | round trip by induction over values of all schemas |
| C93 | the query serializer against a reader | round trip by induction over values of all models, parameters in any order |
| C94 | the SigV4 scheme, between signer and publisher | composition of C74 and C11, search for the last separator |
| C95 | enum lookup and Python's dispatch of `==` | case analysis, equivalence and hash laws |
| C96 | requests read by a service that knows the operation | inversion of the request, location by location |
| C97 | patterns as text: regular expression, replacement, `str.format` | parser inverts renderer, refinement of the pieces |
| C98 | signer, CRT client and a service that verifies | composition; the service's canonical request is the signer's, line by line; converse by injectivity |
| C99 | standard credential providers, composed with C47, C48, C51, C52 | sorting puts them first, then step by step |
| C100-C102 | classes that the code generator writes for structures and errors | induction on the rank of shapes; dictionaries by lookup |
| C103 | cache of retry strategies of all clients | invariant over histories of an LRU cache; owners of objects |
| C104-C105 | configuration of a client and its copies in calls | objects on a heap, correspondence of deep copies, invariant over interleavings |
| C106-C107 | generated schemas, prelude and trait classes | invariant over the statements of a module with references to be filled in later |
| C108-C110 | names and imports of generated files | injectivity of the choice of names; decision logic with an exact condition |
| C111 | auth schemes of generated clients | decision logic against the effective schemes; program written by the generator is run |
| C112 | literals in generated code | round trip through a reader of Python expressions |
| C113 | classes of traits | decision logic against a table of what traits say |
| C114 | retry plugin of DynamoDB clients | decision logic against who asks for what; invariants of C13, C14 |
| C115 | REST JSON messages | round trip; composition of the models of C29, C43, C44, C79, C80 |
| C116 | documentation in generated code: `GeneratedDocs.lean` | reading the literal character by character, for all texts pandoc may write |
| C117 | importing generated modules: `GeneratedFiles/Order.lean` | running the statements, for all models and orders; a linear extension of what needs what |
| C118 | configurations of clients: `GeneratedConfig.lean` | a sorted set by names equals "first of its name"; induction over the constructor's lines on a heap |
| C119, C120 | serializers and deserializers of generated classes: `GeneratedSerde/` | induction on the depth of values, over shapes that refer to themselves; composed with the codec of C43 and C44 |
| C121 | what generated classes read from any JSON text: `GeneratedSerde/Any*.lean`, `GeneratedSerde/Nested.lean` | induction on JSON values against a relation |
| C122 | credentials of instances: `Identity/Instance.lean` | invariant of all histories of calls |
| C123 | which files a configuration is read from, and when: `AwsConfig/Files.lean` | refinement of C49; invariant of all schedules |
| C124, C125 | changes, releases and the changelog: `Changelog/Model.lean`, `Props.lean`, `Render.lean`, `Whole.lean` | invariant of all histories and crash points; the text against a layout |
| C126 | which types a package of types has: `TypeCodegen/Model.lean`, `Props.lean` | reachability, both directions |
| C127 | requirements of a generated package: `Requirements.lean` | invariant of a fold; a reader |
| C128 | the Accept header of API Gateway: `Fields/Accept.lean` | on C25, idempotence |
| C129 | an output from the service to the caller with REST JSON, with or without a payload: `RestJson/`, `RestJson/Payload.lean` | round trip, composition of C119, C78, C29, C79, C43 |
| C130 | an input from the caller to the request with REST JSON: `RestJson/Request*.lean` | specification of each part, composition of C119, C78, C97, C28, C29, C43 |
| C131 | answers of a service with REST JSON, outputs or errors, to the caller: `RestJson/{Answer,AnswerPayload}.lean` | composition of C129, C32, C40, C59 |
| C132 | answers of a service with AWS Query, outputs or errors, to the caller: `QueryAnswer/` | composition of C92, C119, C32, C78 |
| C133 | inputs of operations with AWS Query, from the caller to the service: `QueryRequest/` | composition of C119, C93, C78 |
| C134 | the classes that are generated for enums, as Python makes them: `GeneratedEnums.lean` | composition with C95 |
| C135 | names of AWS clients, and the generated module that gives a client for its old name: `ClientNames.lean` | decision logic |
| C136 | `MockHTTPClient`: `Transport/Mock.lean` | invariant of histories |
| C137 | dependencies in `SetupGenerator.java`: `Packaging.lean` | fold with invariant; round trip through a reader |
| C138 | `InitGenerator`, names of modules: `InitFiles.lean` | exact description of the files in the end |
| C139 | `RuntimeClientPlugin`, default plugins of `ClientGenerator`: `ClientPlugins.lean` | history of the builder; ordered set |
| C140 | assertions of generated tests of requests, `HttpProtocolTestGenerator`: `ProtocolTests.lean` | counting by removal; equivalence |
| C141 | `splitHeaders`, `parseEntry` of `HttpProtocolTestGenerator`: `TestHeaders.lean` | round trip with `Field.as_string` |
| C142 | `compareMediaBlob` of `HttpProtocolTestGenerator`: `TestBodies.lean` | sorted lists are equal iff permutations |
| C143 | `generateOperationTests`, names of tests in `HttpProtocolTestGenerator`: `TestCases.lean` | injective names |
| C144 | `assertResponseEqual`, `generateErrorResponseTest` of `HttpProtocolTestGenerator`: `TestResponses.lean` | equivalence |
| C145 | `ValueNodeVisitor` of `HttpProtocolTestGenerator`: `TestValues.lean` | induction on nodes |

## How to read a theorem

* Names start with the id of the property. `_partial`: only part of the English statement, or under
  a hypothesis the English statement does not have; the doc comment and the manifest note say which.
  `_fails`: the English statement, or the part in question, is false of the code, with a witness.
* `lean/Verif/X/Spec.lean` (or the section "Specification" of a one-file area) is what has to be read
  besides the theorem. Specifications do not call the functions under proof, except where a
  theorem is about two of them together (round trips).
* `example`s below the theorems show that hypotheses are met by non-trivial cases.
* `seeded/LOG.jsonl` lists realistic bugs that were put into copies of the model. `failed` has the
  declarations whose own proof broke, `theorems_failed` the theorems that broke or rest on one that did.
  Lines with `"outcome": "survived"` are tries in which no theorem of the property named was found to fail.
  Those made before C98 were at first not logged and were added from saved outputs; of earlier rounds whose
  output was not kept, only the tries that were caught are listed.

## Trusted base

* Lean's kernel. Axioms: at most `propext`, `Classical.choice`, `Quot.sound`; `AXIOMS.md` lists them
  for each theorem in `MANIFEST.json`. There is no `sorry`, no `native_decide`, no added axiom.
  Concrete executions are evaluated by the kernel (`decide +kernel`).
* That the model is the code. There is no mechanical link: each definition cites the lines it was
  written from.
* What Python and its standard library do, where modelled: `dict` (insertion-ordered), `str`
  methods on ASCII (`lower`, `strip`, `split`, `isspace` are parameters where more is possible),
  `re` for the patterns used, `urllib.parse.quote/unquote_plus/parse_qsl/urlunparse/urlparse`,
  `ipaddress`, `decimal`, `struct`, `binascii.crc32/a2b_base64`, `BytesIO`, `asyncio.Lock`,
  `asyncio.Condition`, `copy.deepcopy`. Citations of the standard library are to Python 3.11.
* asyncio: a coroutine runs without interruption between two suspension points; any task that is
  ready may run next. Threads (C12): interleaving at every access to shared memory, with the lock.

Parameters (arbitrary in the theorems, with the stated hypotheses if any): hash and MAC functions,
UTF-8 decoding with replacement, `str.lower` and `isspace` outside ASCII, `float()` and `repr` of
floats, `int()` of text in configuration files, random numbers of the jitter, the clock, everything
user code can plug in (interceptors, resolvers, transports, writers, sources, providers).

## What is modelled

| package | modelled | not modelled |
|---|---|---|
| smithy-core | `__init__` (URI), `rfc3986`, `endpoints`, `shapes`, `schemas`, `traits` (base classes, the uri of HTTPTrait), `documents` (Document, TypeRegistry; see below), `serializers` (InterceptingSerializer), `interceptors`, `retries`, `types` (PathPattern, TypedProperties, TimestampFormat, UnknownEnumMixin), `utils` (split_every, strict parsing, floats, dot segments, timestamps), `aio/client` (pipeline, event streams), `aio/eventstream`, `aio/retries`, `aio/types`, `aio/utils` (seek, reading of blobs), `aio/identity` | prelude, codecs, concrete traits, logging |
| smithy-http | `__init__` (Field, Fields), `utils`, `bindings`, `serializers`, `deserializers`, `user_agent`, `interceptors`, `restjson`, `aio/restjson`, `aio/protocols` (endpoint, errors), `aio/auth/apikey`, `aio/aiohttp` and `aio/crt` (bodies, queries, headers, targets, connections), `testing/mockhttp` | the libraries aiohttp, yarl and awscrt, time-outs of the transports, `testing/utils` |
| smithy-json | serializers, deserializers, documents (as they are read) | the tokenizer (ijson): the model starts from its events; settings |
| smithy-xml | deserializers, readers | the XML parser (`iterparse`): the model starts from its events |
| smithy-aws-event-stream | `events`, `aio` (publisher, receiver), `_private/serializers`, `_private/deserializers` | exceptions' messages |
| smithy-aws-core | `config/*`, `identity/container`, `imds`, `environment` (caches, endpoint checks, token cache), `identity/chain` with its providers, `identity/static` (with a fixed identity), `_private/query`, `aio/protocols` (query, REST-JSON errors), `utils`, `interceptors`, `endpoints` | reading of files, `traits` |
| aws-sdk-signers | `signers`, `_http`, `_io` | `_identity` beyond its fields, exceptions |

Code generated from models (Java in `codegen/`): the classes of structures and errors are modelled
with the generator itself (C100-C102: `StructureGenerator`, `MemberErrorCorrectionGenerator`,
`RequiredMemberTargetIndex`, names of members).  Unions, lists and maps are modelled as the generators
write them where a deserializer needs their consumers (C44, C45, C82-C84), enums in C95.  The names
of what is defined and imported are modelled with `PythonSymbolProvider`, `PythonWriter` and
`ImportDeclarations` (C108-C110), auth schemes in C111, literals for nodes in C112, and what the classes of
traits make of them in C113.  Of the integrations for AWS the retry plugin of DynamoDB is modelled (C114).  Documentation
is modelled from what is read from pandoc on (C116), the order of classes in a file and what Python evaluates when it
imports it in C117, and the configuration of clients in C118.  The requirements in `pyproject.toml` are modelled in
C137, the files `__init__.py` in C138, which plugins clients come with in C139,
what generated tests of requests check in C140, which values of headers they expect in C141, how they compare bodies
in C142, which tests are generated in C143, what tests of responses check in C144, and of which types their values
are in C145.  Not modelled: the other text of `pyproject.toml`.  Of generated
clients the constructor and the first part of an operation are modelled (C104, C105: copying the configuration with `copy.deepcopy`, and plugins).

General simplifications, besides those named in the comments: text is a list of characters or of
UTF-8 bytes; lone surrogates are not represented; messages of exceptions are left out, their kinds are
kept; log output is left out; memory and recursion limits are not modelled; `KeyboardInterrupt` and
other `BaseException`s appear as `aborted` in the pipeline and nowhere else.

## Disagreements between the code and what one would expect

Found while proving; each has a theorem `Cnn_..._fails`.

Event streams
* C02 `int(value.timestamp() * 1000)` loses a millisecond for some timestamps (1.001 s is written as
  1000 ms); the largest datetime cannot be read back.
* C04 the checksum, stored big-endian, does not detect every change of four bytes that straddles payload
  and checksum.
* C08 a blob or string at the end of a header block may be shorter than it declares; C61 the declared
  header length may exceed the frame; C62 a failed integer header leaves its name and type byte behind.
* C11 an event whose encoding is too large advances the signature chain although nothing is written.
* C63 a failing identity lookup inside `close` lets a waiting `send` write after the writer was closed.
* C81 an empty string or blob bound to the payload is not read at all; an error that the receiver does not
  know raises `KeyError` where an unknown event is let through; a boolean header is read as an integer.
* C19 four lost wakeups of `AsyncBytesProvider` (flush beside a write, several writers, two readers).

Readers and bodies
* C16 an async iterable that is no iterator starts afresh at every read.
* C17 a failed seek to a negative position moves the cursor; relative seeks depend on what is
  buffered; a short read is taken for the end.
* C60 a transport that closes the body makes the next attempt fail; a body that cannot seek, put in
  place by an interceptor, is sent again with what is left of it.
* C35 signing consumes a body that is an iterator.

Pipeline
* C20 every modify hook of a chain sees the original context, the last one wins;
  `modify_before_completion` calls `modify_before_attempt_completion` instead (interceptors.py:644).
* C21 a raising read hook keeps the hooks of later interceptors from running.
* C22 a cancelled call runs no completion hooks. C24 the serializer is given `call.input`, not what
  `modify_before_serialization` returned. C66 the signer gets the option's identity properties
  (client.py:435). C94 the events of the request do not get them (aio/protocols.py:206).
* C85 an exception in any step before sending never reaches the caller of an operation with an input
  stream, who waits for ever; a call cancelled while it waits still sends its request.
* C86 `DuplexEventStream.close` waits for the output before it closes the input, for ever if the service
  answers at the end of the input only; if the call failed it leaves the input stream open.
* The request is copied shallowly for each attempt, so headers set in one attempt are there in the
  next (C89: the Host header that the CRT client adds).
* C87 a plain reader cannot be consumed asynchronously (its `read` is awaited); an asynchronous reader
  consumed synchronously gives a coroutine; a buffer size of 0 sends an empty body.
* C88 the aiohttp client drops parameters without a value, although they were signed, and sends trailers
  as headers. C89 the Host header that the CRT client adds has the user name and password; an empty path
  gives an empty target. C90 overlapping sends lose an open connection.
* C91 user name, password and fragment of a configured endpoint are dropped, and parameters of its last
  path segment; a bad port raises `ValueError`; a request without a query gets an empty one.
* C92 attributes of the element in the wrappers of a protocol are not read.

Retries
* C14 `OverflowError` from retry 1025 on. C13 `max_attempts=0` behaves like 1. C14 the
  documented formula for decorrelated jitter is not the one computed, and the previous delay is shared
  among requests.

HTTP
* C25 `extend` stores the other collection's field objects; extending twice from one collection, or
  from itself, never returns.
* C26 a single value with a comma, and empty or blank values, do not survive. C27 dots in labels are
  not encoded. C28 a leading parameter with empty name and value vanishes.
* C29 a member without binding is written over the payload member. C67 a bound Content-Type is sent
  beside the computed one; the length of a stream is never computed. C68 a query-map entry is sent
  besides the explicit member of the same name. C70 the host prefix is dropped by
  `set_service_endpoint`.
* C96 empty lists and maps bound to headers or the query leave no trace. C97 no request can be made with a
  path label named `self`.
* C30 the configured suffix is not sanitized. C31 for keys in the query the path is overwritten with
  the password and the key is not encoded (apikey.py:69).
* C57 an endpoint without port or credentials takes the request's; leading slashes of the request
  path are lost. C71 hosts followed by a line feed are accepted (`$` in the pattern). C72 components
  are not encoded when the URI is written. C36 `"/../"` becomes `""`, `"/..//a"` becomes `"/a"`.
* C32 a JSON error body without code raises `DiscriminatorError`; a query error code that is no shape
  name raises `SmithyError`. C59 the fragment of a URL is taken for the code. C69 a JSON body that is
  no object raises `AttributeError`.

Signing
* C33 `transfer-encoding` is signed. C74 a stale date or token header of the caller is kept while the
  scope has the new date. The signed host has userinfo and no brackets around IPv6 addresses.
* C98 a signed request sent with the CRT client is rejected if the destination has the default port of its
  scheme (signed without, sent with it), a header has several values one of which has a comma
  (signed with quotes, sent as they are), a trailer is there, the payload is not signed (the service is not
  told unless a checksum is asked for), the synchronous signer is given a content hash, a date is given, or
  the method is in lower case. Smithy clients sign several values with a space after the comma, which is
  not the text the service puts together (shown for the texts, not by a run of the signer). That paths
  start with a slash and header names have no comma or semicolon is assumed, without a witness.
* C34 percent-sequences that are no UTF-8 all become U+FFFD (visible in the parameter `decode`).

Codecs
* C43 NaN is written bare; decimals with more than 28 digits are rounded. C44 an empty key at the top
  of a document ends it early; infinite decimals cannot be read back; `true` is accepted for a
  number; null documents in lists and maps are dropped.
* C45 in flattened lists of structures the first structure is checked against its shape's name.
* C46 a member named Action or Version, or with dots, gives a duplicate key.
* C95 a placeholder of an enum of numbers equals floats and booleans that stand to its left; a pickled one
  loses its flag and may come back as a member.
* C93 structures and maps with nothing in them, and nulls in lists, leave no trace in a query request.
* C55 `\d` accepts digits of all scripts; negative whole decimals are written without a fraction.
* C75 years before 1000 are written without padding where the C library does not pad `%Y` (glibc); leap
  seconds and a lower-case `z` are refused; dates only, week dates and times without offset are read.
  C76 years before 100 are read back as 19xx or 20xx. C77 beyond 2^33 seconds of 1970 microseconds
  change; the last microsecond of 9999 cannot be read back.
* C78 a single plain string with a comma in a list of headers is read as two, a single empty string as
  an empty list. C79 a key of the body named like a member bound to a header replaces it; an empty
  body without content length that was not buffered is handed to the codec. C80 a payload of an
  enumeration is written by the codec but read raw; keys of prefix headers that differ in case only
  are merged; empty lists in headers are lost.
* C39 updates through a nested document leave the remembered plain value of its ancestors stale.
* C41 `|=` with a plain dict of property keys.
* C82 `None` in a sparse map of structures, unions, lists or maps raises when the shape is made a
  document; null documents in lists are lost; a member of a document that is null raises when a
  structure is read; documents are made with serializers shared by all threads, so two threads can mix
  up their values. C83 the document made of a union with a scalar cannot be written.
* C84 from a document that was read from JSON: members with a JSON name are lost, timestamp formats are
  ignored, whole or infinite floats and whole decimals raise, null members raise.

Generated code
* C120 the class for unknown members of unions is never used with JSON: the deserializer skips unknown names, and then
  the generated code raises an error because there is no member.
* C119 an unknown member of a union that was received can not be sent back: its `serialize` raises an error.  `None` for
  a member with a default (with `clientOptional`) is not written.
* C118 settings are `x or default`: an empty list of interceptors or an empty dictionary of auth schemes that is given
  is replaced. A service without operations gets a module that is not Python. `AddAuthHelper` writes the text of the
  class again as a template, in which dollar signs of the model (say, in the name of a header for keys) have a meaning.
* C117 quotes are put around the types of members that are recursive, but functions for lists and maps have types
  without quotes: lists that are not recursive themselves but whose elements are come before them, and the module cannot
  be imported before Python 3.14. Nor can it with a recursive error or an empty default for a recursive list, or
  if a member is called `field`, `timezone` or `classmethod`. A member called `serialize` has the method for its default.
* C116 nothing is done about quotes in documentation: three in a row end the docstring and the rest is run
  as code on import, one at the end of a text on one line makes the module unreadable. Backslashes in code are
  not doubled. The dollar signs of operations' documentation are doubled.
* C114 options given for one call of a DynamoDB client have the defaults of all clients, not DynamoDB's; a
  `retry_mode` of the configuration other than `standard` is read by the plugin and used by nobody.
* C111 the generated resolver compares `auth_parameters.operation` with a name, so `@auth` on operations
  has no effect, not even `@auth([])`; without auth traits every call raises `AttributeError`. C112 integers
  beyond 64 bits are cut. C113 checks in `__post_init__` of traits are never made, `RestJson1Trait` and
  `AwsQueryTrait` cannot be made from a `DynamicTrait`, and the IDs of `DefaultTrait`,
  `IdempotencyTokenTrait` and `UnitTypeTrait` are those of no trait.
* C108 classes of members of unions may get the same name: a member called `unknown`, unions `Foo` and
  `FooBar`, names with underscores; a shape called `ServiceError` replaces the base class. C109 names that
  are written out (`Union`, `Any`, `Literal`, elements of lists and maps) are not guarded against shapes of
  the name; the names made up for clashes are not unique. C110 `relativize` compares texts: a client
  called `smithy` cannot import `smithy_core`.
* C106 shapes whose names are the same in upper snake case share one schema. C107 three trait classes are
  declared with wrong IDs (traits.py:96, 164, 206): idempotency tokens and defaults are never found.
* C103 a strategy is dropped from the cache when 128 other settings have been asked for, and the quota
  is full again; negative numbers of attempts are refused in one mode only. C104 retry strategies are not
  copied, so a plugin of one call changes them for all; the constructor changes the caller's own
  configuration. C105 credentials and CRT connections of a call are lost with the copy that holds them.
* C100 members whose names differ only in how words are separated share an attribute, and one value is
  lost; the default of a blob is its text in base64. C101 names of members that the base classes of errors
  use are not escaped (PythonSymbolProvider.java:146 asks the wrong shape for the trait). C102 `None`
  for a member with a default that may be null comes back as the default.

Configuration and identity
* C47 `key = # comment` has the value `# comment`. C48 raw names of sections with different spacing
  are merged in the order of first appearance. C49 a region followed by a line feed is accepted.
* C50 the answer to a fetch started before `invalidate` is stored after it; the environment resolver
  caches but does not implement `invalidate`. C51 an exception in one resolver's `invalidate` keeps
  it from later ones.
* C99 a profile the program asks for is ignored if the environment has keys; a session token of the config
  file is used with the keys of the credentials file; empty keys of a profile count as credentials (those
  of the environment do not); a profile that does not exist is no error.
* C122 the offset of an expiration is dropped, not converted (`replace(tzinfo=UTC)`); statuses of the
  metadata service are not looked at, so error pages become tokens, roles and answers.
* C123 `parsed_profiles` says that files are read once per context; calls at the same time read them again and
  may get different profiles. An empty `AWS_CONFIG_FILE` means the working directory.
* C124 a release that is killed before it has removed the changes, or that cannot remove them, leaves them for the
  next release too; an entry written while a release is made is lost; an entry without a description is taken, and
  then no release succeeds. C125: the version `1.0.0` with a line feed is taken and is missing from the changelog.
* C126 synthetic operations for errors get the same id, so all but one of them may be lost, and with them the classes of
  the errors; `generateInputsAndOutputs` never gives a class for an input or output.
* C129 an output with `None` for a map that is bound to headers with a prefix is read by the client with an empty map
  (`C129_prefix_none_fails`), and values of such a map that have a media type are written raw but read as base64
  (`C129_prefix_media_fails`).
* C129 a document that is the payload of an output and that the service has left out makes the client fail: only lists, maps, unions
  and structures are not read from an empty body (`C129_absent_document_fails`; deserializers.py:108-116).
* C129 a blob that is the payload of an output and that the service has left out is read by the client as an empty blob
  (`C129_absent_payload_fails`).
* C129 an output that has an empty list for a header is read by the client with `None` for it, and one with `None` for the member
  bound to the status is read with the status of the operation.
* C132 an AWS Query response is refused if anything comes before `NameResult` in `NameResponse`, or before `Error` in `ErrorResponse`
  (`RequestId`, say, though the code of the error is found then): the elements around the value have to be the first ones.
* C132, C133 schemas of members take over the traits of their targets (smithy_core/schemas.py:262-264), `@xmlName` too, which in Smithy
  only names the outermost element of a shape. A member without `@xmlName` whose target has it is written under the name of the target
  in AWS Query requests, and not found under its own in XML responses.
* C130 a query parameter that is bound by its own member (`@httpQuery`) should have precedence over one of the same name in a map of parameters (`@httpQueryParams`); the query has both (`C130_precedence_fails`; serializers.py:580-630 and 698-728).
* C130 where a payload is a blob or a text of which the length is required (`@requiresLength`), an input without it has no request: `isinstance(None, Sized)` is false, so no length is written, and `_compute_content_length` finds none of the empty reader (`C130_required_length_fails`; serializers.py:128-130, 180-187 and 204-224).
* C134 names of members of enums are converted to snake case and put into capitals without a check: two names that become the same
  (`darkRed`, `dark_red`) and names with an underscore on both sides make the generated module fail on import, and members whose names
  begin with two underscores are private names of the class, not members.
* C135 the function that gives a client for its old name is asked only if the module has no such name: a class of the model that is
  called `PollyClient` and used by an operation of Polly would be found instead of the client.
* C136 the client for tests keeps shallow copies of requests: fields that are changed after sending are seen changed in the record.
* C138 files that integrations write in directories of their own are not in packages, nor are directories that only have directories in
  them; names of modules may begin with a digit or be keywords.
* C139 plugins of the generator that are made with `appliesOnlyToOperations` apply to nothing: the method resets the predicate that it
  has just set. Files of plugins that apply to operations are not written.
* C140 generated tests of requests do not find forbidden parameters without a value, nor additional values of headers; they report required
  parameters that are empty, and required headers that are listed twice, as missing.
* C141 of a header bound to a list with one element that has a comma, generated tests expect the whole text and its parts too; an empty
  last element of a list is not expected.
* C142 no request meets a generated test that expects an empty body of JSON; a missing body meets one that expects `""`, and `1` one that
  expects `true`.
* C143 generated tests whose ids and names of operations, joined with underscores, are the same replace each other.
* C144 generated tests of errors compare names of classes with names of shapes: they fail for right clients if the error is renamed or begins
  with a small letter; they do not look at the members of the exception.
* C145 generated tests write a list of documents as one document, and documents in unions without their class.
* C53 the query of a full URI is dropped; https hosts are refused. C54 the age of a token is counted
  from its receipt; error responses are cached as tokens.
