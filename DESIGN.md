# Formal model of CrimsonVista/Playground3 in Lean 4

This file is the plan and the statement of the trusted base. It was written before
the proofs and is kept current.

## Layout

* `properties.jsonl` – the English properties (generated by `tools/gen_properties.py`).
* `lean/Verif/Model/*.lean` – the model. One module per part of the code; each
  definition cites the file and lines it models and states its simplifications.
* `lean/Verif/Spec/*.lean` – small independent specifications (where the statement
  needs vocabulary that is not in the model).
* `lean/Verif/Lemmas/*.lean` – helper lemmas and proofs.
* `lean/Verif/Props/*.lean` – the property theorems and, beside each, an `example`
  showing that its hypotheses are met by a concrete case.
* `MANIFEST.json` – property → theorem names.
* `seeded/LOG.jsonl` – what was done to test the theorems against wrong programs.

## Conventions of the model

* Python `bytes` is `List UInt8` (`Bytes`); Python `int` is `Int`/`Nat`, unbounded as in Python.
* `str` is `List Char` (lone surrogates, which `encode("utf-8")` rejects, are not representable).
* Python exceptions are values (`Except`); an exception that leaves mutated state behind
  is modelled with the mutated state.
* Python `dict`/`set` are association lists / duplicate free lists with insertion order, as in
  CPython ≥ 3.7; iteration order of `set` is not relied on in any theorem.
* A generator that yields "waiting for stream" is a suspended program (`Dec`), resumed when
  more bytes are there.
* asyncio callbacks are events: a property over all schedules is a theorem over all event lists.

## Plan per property

C01 codec model (`encode`/`decode` of all field types, nested structs, lists, packets); round trip by
induction on the type/value; false for non-ASCII strings, for floats in 32-bit fields (C81) and for nested packets followed by long
fields (see C11, C13): negation with witness, `_partial` theorem with the side condition.
C02/C03 generator model with suspension; invariant "residual program parses the remaining bytes".
C04 scanning lemma for the resynchronisation loop.
C05 false (see findings): negation with witness; `_partial` theorem when the prefixes differ.
C06 theorem about decoding with an unknown tag. C07 loop invariant over the field list.
C08 induction over the value. C09 arithmetic of pack codes; signed half is false → negation.
C10 false → negation, and exact characterisation of what is kept. C11 false → negation; exact
characterisation (round trip iff ASCII). C12 structure of `encode`. C13 false → negation.
C14/C15 framing adapter over an explicit byte stream with position.
C16/C17 two dictionaries, invariant "inverse of each other"; views as paths.
C18/C19 tree of dictionaries, refinement to a finite map on key-part lists.
C20 registry over the hierarchical dictionary; `findCompatibleVersion` NameError is modelled.
C21 silo stack. C22 decimal printing/parsing. C23/C24 stream state machines.
C25/C26 addresses as four parts. C27/C28 refinement of the two switch tables to "last valid registration".
C29/C30 fragment storage as overlay writes; permutation/duplicate invariance; stale `demuxData` bug → negation.
C31–C38 VNIC/control/client/callback state machines, invariants over event lists.
C39–C41 Floyd–Warshall with path lists; invariants; the incremental update (`setDirectConnections`).
C42 timer over a virtual clock. C43 line splitter. C44 SPMP server. C45 EtM with abstract cipher/MAC
functions as parameters. C46/C47 observation/stack. C48 corrupting transport. C49/C50 PNMS.
C51 termination of `nextPackets` with a measure on the bytes received. C52 the decoder as a resumable parser: a strict prefix asks for more. C53 see C20.
C54 the framing encoder on top of the packet codec; frames as a specification of byte strings, every chunking. C55 wrong announced lengths.
C56 the WAN with devices, routers and direct links; the specification is a view of seats (address, place) and the graph of C39; an
invariant relates the tables of the switches to the seats and the ends of the links; packets are followed over at most one link.
C57 the framed adapter on top of C54 and C44; the two protocols are arbitrary functions that may raise; a log of the calls is compared with
the packets that were sent.
C58 links on byte streams around the switch of C27/C28: a log of what the switch saw is related to what was written (C54), the routes to
the registrations (C28), the calls of the demuxer to the reassembly (C29).
C59 the configuration file as the state, every command a function from a file to the contents the file takes and the outcome; the
specification is a transition relation on networks, and a representation invariant relates files and networks.
C60 the VNICs of C31-C35 composed with the network of C58; projections of a history to each VNIC and to the network reduce it to C32 and C58;
what keys a VNIC can use is an invariant of the whole world.
C61-C63 the connector as a machine of coroutine steps over the client of C33 and the callback service of C36; each event is decomposed
into primitive changes, over which the invariants (who asked with which id, whose application runs on which connection) are proved.
C64 the VNIC and the connector with the TCP connections between them (written, arrived so far); other processes are arbitrary events on other
control connections. An invariant carries one history for each machine, so that the reachable-state lemmas of both apply, and says how the two meet:
every open packet at the VNIC stems from a call, every announcement from a socket, every callback protocol from a callback connection.
C65 the network of C60 with a process as in C64 at each VNIC; a history is projected to the network and to each VNIC with its process, so that C60 and
C64 apply, and what is sent with a key is shown to be what arrives from the process on the one callback connection with that key. `C65_can` (Props/AppsCan.lean)
constructs the continuation in which everything arrives.
C66 shlex as a state machine against a grammar of lines (both directions); the shell as a heap of command objects, with the behaviour of callbacks, argument
handlers and files part of each event; a relation says what words mean, and invariants say that meanings last and that the shell's own objects are untouched.
C67 batch tasks as steps interleaved with everything else; an invariant relates what was fed, what came back and what has completed.
C68 C69 the event loop as a list of events around the VNIC of C38; an invariant ties what was seen (attempts, links, losses) to the timers,
tasks and links there are; the file as the list of contents it had.
C70 the state of the log configuration (handlers, attached filters, levels) and of Python's root logger; an invariant over histories gives the
filters of the stderr handler as the lists of all log levels set so far; the places of a message are then read off.
C71 the two tables and flags of the connector service; each call carries what a load would find on the disk; an invariant gives both tables as
'the last of a list', from which every lookup follows. `split` is proved against occurrences of `://`.
C72 the search order as a list that grows with the calls, against the list of directories in the claim.
C73 files with times, any number of open configurations, and other processes, as one history; a frame theorem says what may change a file.
C74 the requests of the management interface as calls on the WAN of C39-C41/C56, with Python's `int()` and the texts of the answers; a translation of the requests into the
calls they stand for shows that the state of the WAN is that of these calls; the protocol of C57/C58 carries them.
C75 the switch of C27 with the transports of C48/C49 in layers, one pair for each announcement, and the requests of the management interface; invariants on the layers by induction over the
history, and the protocol of C57/C58 carries the requests.
C76 the lookups of StandardVnicService and the beginnings of the connector's calls on the manager of C59; the network that the commands have made decides. The status of the devices' objects and the
status files are arbitrary.
C77 commands as processes: every one makes a manager that loads the devices in the order of the file (with the state machine of C50), acts and ends; processes and connections remain. An invariant of loading
gives the state in which every command acts; the loops of on and off by induction.
C78 calls of transports and protocols as one function with Python's recursion limit as fuel; protocols and functions of the test are arbitrary programs that may call the transports. Invariants: an account of the
data (written = received + in hand + scheduled) for every nested call, an invariant of the schedule, and an analysis of the state around close.
C79 the daemon of C68 with the logging of C70 and the API as a dictionary; a history with requests is mapped to one of C68 and to one of C70 (refinement), whose theorems then apply. The protocol: `HiddenSPMPServerProtocol` with an
arbitrary main protocol that acts on the same state, by induction on the packets.
C80 layers and applications are arbitrary programs (a state, calls, continuation depending on the outcome); one function with Python's recursion limit as fuel runs the calls and logs them. Every layer's part of the log is shown to be one of
its histories in an arbitrary environment (induction on fuel and program), neighbours' logs agree, and the relation climbs up the stack by induction on its height. For transports that do not call up the environment is calm.
C81 doubles and singles as bit patterns, `struct`'s `!f` and `!d` as functions on them (tested against hardware while the model was written); values as integers in units of 2^-1074. The value of a magnitude is strictly
increasing in its bits, the rounded number is one of the two neighbours, the nearer one. Rounding the floats of a packet does not change its bytes (induction on the packet), so C01 applies to the rounded packet.
C82 a predicate on resumable decoders (`Dec.Post`: whatever it is fed, what it returns satisfies Q) goes through binds, loops and the deserializer's restarts; Q says that each value came out of the wire format, from which
acceptance, depth and encodability follow by induction on the value. A packet without its required fields is the witness against the whole claim.
C83 transports and their dictionaries as objects on a heap (sharing is possible); the four addresses of a connection are followed from the VNIC's socket through the announcement packet, `_connectionData` and the dictionary of
`setPlaygroundConnectionInfo` to the transport on top of any number of layers (invariant of Model/Host); the Setting of C65 gives the mirror image.
C84 packets, structs and lists as objects on a heap, with the operations of the API as steps; an invariant (every list is held by one place; references are in range; kinds fit) over all histories, and a value function by unfolding to any depth;
frame lemma: a step changes only parts that contain its target.
C85 one call of pnetworking as a function of its arguments and of what it finds (Model/Cli on top of Model/Pnms); histories of calls reduce to histories of commands of C59; the text of `status` is read back
as paragraphs, one per device, each related to the network by a declarative relation (Spec/Cli).
C86 `==` as a recursive function on the values of the codec (Model/Equal), floats by their bits; shown to be an inductive relation (Spec/Equal) with floats by value; composed with C01 and C81 for packets that were sent.
C87 Bytes of a packet as a header and any list of (field, value) entries (Spec/Entries); induction over the entries with the decoder of C01 generalized to fields that have values; what `__serialize__` writes is shown to be one such list.
C88 `query` and the condition as a transition system (Model/Query: calls, waiters in order, notifications that did not run, woken calls), any interleaving; an invariant on the queue against the log of requests and responses; the bytes by C02.
C89 the completers as functions of the state of the shell model and a file system (Model/Complete); paths of names as an inductive relation; induction on the text, an invariant on the names over all histories.
C90 the reader thread and the event loop as a transition system over any schedule (Model/Stdio); one invariant for what the protocol is told, one for the line in hand (queued, pending, woken).
C91 client (C88) and server (C44) joined by two byte streams (Model/AskNet): an invariant gives the history of the client and the chunks of the server; then C88_stream and the server on a prefix of the requests; a lexicographic measure for termination.
C92 the VNIC model with its list of dumping connections: the dumps of a history against a small recursive specification (Spec/Dump), and a projection that forgets dumping commutes with every step; the dump client as a function on packet values.
C93 the control protocol on bytes (the Deserializer model on top of the VNIC model); the bytes between packets are shown to be skipped by the Deserializer for all sizes outside an explicit set, then C03's invariant applies; witnesses for the sizes inside it.
C94 the client library and the VNIC (models of C36 and C35), each behind a Deserializer, and byte queues between them; an invariant says what is on the way in each direction as packets, so both ends have histories of their own models, to which C36 and the VNIC theorems apply; a witness for cancelled calls.
C95 Deferred with its future and the loop's ready queue; an invariant relates calls made plus calls still queued to the history; the full claim is false for false values, with a witness and a theorem that such a result reaches nobody.
C96 a section in memory and in the file, and operations through views; induction over histories; false for del and for the methods passed on to the section.
C97 classes as trees of their bases, the queue of iterateClassAncestors, the table; the queue is proved to go through the ancestors by distance, from which the nearest decides; derived classes by deleting silent bases level by level.
C98 __serialize__ and Deserialize of a struct without header, on the codec of C01; the round trip lemma is repeated with no limit before the first header.
C99 the seekable mode of the stream of C24 with positions in the integers and the closed flag; a simulation with a file that knows its chunks, and an exact formula for all other reads.
C100 sockets of the server on the connector of C61-C63; an invariant of the callback service that its table and its back pointers are inverse, without doubles, and that what is in it has not been told that it is lost.
C101 run files, pid file text, output of ps, and an arbitrary behaviour of other processes in every second; the loops by induction on the timeout, and refinements of the shutdown and of the start of C50.
C102 the loop around the decoder of C01-C06 with its generator object; a decoder that waits is at a fixed point when the stream does not grow; with C03 for all prefixes.
C103 the metaclass of the devices as a state machine over class definitions; an invariant that relates the three tables to the attributes of the classes.
C104 chains of adapters with attribute tables; induction on the chain and the history.
C105 keys with parts that are strings, numbers or None, compared with keys, sequences and other values.
C106 constants with floats given by the operations used of them.
C107 certificates with their signed part, signature and key, keys as verification functions; induction on the chain.
C108 signatures and verification as functions of a padding; the encryption of C45 with them.
C109 `%` formatting with a mapping as a state machine over the text; messages as lists of characters and fields; induction on the list and on the handlers.
C110 the loop of LineReceiver with both modes over a handler; what a chunk leaves and the next one is what both would leave, by induction on the turns; a subclass for lines with bodies.
C111 the clients' connections as byte streams with Deserializers over the VNIC of C38; an invariant with the phases of a connection: not open, mute, waiting, answered, closed.
C112 usageHelp and help as one function over the command objects of C66, with fuel for the recursion limit; membership in its result is characterised by induction on the fuel, with the invariant that subcommands are kept under their names.
C113 the methods of the log configuration with any arguments on the state of C70; an invariant that relates filters, handlers and levels to what the last call for each handler says, read off from the history backwards.
C114 the constructor's worklist over any graph of attributes; an invariant of its two loops gives values and completeness, a count of the attributes not yet present gives termination.

## Trusted base

* Lean 4.33.0's kernel. Every theorem of MANIFEST.json depends on at most the axioms `propext`, `Classical.choice` and
  `Quot.sound`; `AXIOMS.txt` (made by `tools/axioms.py` with `#print axioms`) lists them theorem by theorem. There are no own axioms
  and no `native_decide`/`bv_decide`. `decide +kernel` is used only for concrete witnesses and is checked by the kernel.
* That the model is a faithful reading of the Python text. Nothing was executed; each definition cites the lines it models.
* Behaviour of Python and its library that is assumed: `struct` pack codes, slicing of `bytes`/`list`, `io.BytesIO`, insertion-ordered `dict`,
  `str.split`/`int()`/`str.encode`, `zlib.adler32`, generators, asyncio's rule that `call_soon`/`call_later`/task steps and
  transport callbacks are separate turns, `configparser`'s lower-casing of keys and that it reads what it has written, `cryptography`'s life cycle of cipher contexts.
* The specifications in `Spec/` and the vocabulary of the statements in `Props/`, which are small enough to be read.

## What is modelled, file by file

| file in /repo/src/playground | model | not modelled |
|---|---|---|
| network/packet/PacketType.py, PacketDefinition.py, fieldtypes/* | Float, Types, Field, Equal, Encode, Decode, Deserializer, Alias, Bare, Attrs | metaclass mechanics other than field collection, tags and registration; `DebugDelattr`; `ExplicitTag` misuse outside of class bodies |
| network/packet/encoders/PlaygroundStandardPacketEncoder.py | Encode, Decode, Dispatch | logging; the debug dictionary |
| network/packet/encoders/PacketFramingStream.py, PlaygroundFramingPacketEncoder.py | Framing, Framed | `seek` with SEEK_CUR |
| network/packet/PacketDefinitionRegistration.py | Registry | threads |
| common/datastructures/* | Dict, Bijection, HierDict, Section (`DelegateAdapter` as base of the configuration views) | key handlers other than the default |
| common/io/HighPerformanceStreamIO.py | StreamIO, Seekable | the generic `io` base class methods (`readline`, …) |
| common/io/ui/CLIShell.py | Lines, Shlex, Shell, Usage, Complete, Stdio | `refreshDisplay`, the text of messages, `formatText` |
| network/testing/mock.py, asyncio_lib/testing/TestLoopEx.py | Mock | `get_extra_info`, `create_connection`, `stop`, `is_running` |
| entry_points/launch_vnic.py: management API; protocols/spmp.py: HiddenSPMPServerProtocol | VnicApi, SpmpHidden | text of Python's exceptions |
| entry_points/launch_vnic.py | Launch, VnicApi | argument parsing, daemonizing |
| protocols/vsockets.py: VNICPromiscuousControl | LevelNet | loss of the control connection |
| entry_points/launch_wan.py | WanApi | argument parsing, daemon, logging itself |
| entry_points/launch_switch.py | SwitchApi | argument parsing, daemon, logging itself |
| common/Version.py, Timer.py, CipherUtil.py | Version, Timer, Cipher, Cert | PBKDF2, reading and writing PEM |
| common/logging.py | TaggedLogger, PlaygroundLoggingFilter, PlaygroundLoggingConfiguration, EnablePresetLogging, CmdLineToLogging (C70), LogHandlers; PlaygroundLoggingFormatter (Format, C109) | other conversions than `%(key)s`, ConfigureArgParser (calls EnablePresetLogging with a wrong keyword) |
| common/Configure.py | Config | the text format (configparser), `__enter__`/`__exit__` |
| common/io/ui/AsyncIODeferred.py | Deferred | what the called functions do |
| common/ReturnOrientedGenerator.py, os.py | Spin, Proc | other users of the generator object; ps that does not answer |
| common/CustomConstant.py, datastructures/DelegateAdapter.py, network/common/PortKey.py | Constant, Delegate, Section, Vnic | identity of constants, other attributes |
| network/devices/pnms: the metaclass of devices | Loader | several base classes |
| network/common/PlaygroundAddress.py, PortKey.py | Address, Vnic | – |
| network/common/Protocol.py | Observe, Stack, StackRun, Extra | – |
| network/devices/switch/*.py, protocols/switching.py | Switch, Fragment, Promiscuous, Unreliable | the TCP server itself |
| network/devices/vnic/VNIC.py, protocols/vsockets.py | Vnic, VnicClient, Promiscuous, Dump, Control, Session | the reading side of the dump protocol (empty, for subclasses) |
| network/devices/vnic/connect.py, asyncio_lib/SimpleCondition.py | VnicClient, Callback, Stack, Connector, Host, Apps, Service, Choose, Sockets | the callback service's TCP server itself |
| network/devices/routing/HierarchyWAN.py, HierarchyRouter.py | Wan, WanNet | plotting |
| network/protocols/spmp.py, packets/management.py | Spmp, SpmpFramed, SpmpHidden, Query, AskNet (with asyncio_lib/SimpleCondition.py) | the lock of the condition (always free) |
| network/devices/pnms/*.py | Routes, Device, Pnms, Power, Choose, Cli, Section | arguments that begin with `-`, the text of `help`, process launching (its results are parameters), the query to running devices other than through Spmp |

## Findings (each is a theorem with a concrete witness where a property number is given)

Codec: non-ASCII strings are truncated, "éa" comes back as "é" (C11); a string of length 65536 passes the check and fails in
`struct`; a nested packet's `set_max_size` is never restored (C13); INT8 accepts 128..255 and values under -128, which
cannot be encoded (C09); required fields missing from the wire are not noticed on decoding; duplicate tags: the last wins; fields after an unknown
extension are dropped; a wrong packet length smaller than the content reads everything (C55); skipping does not wait for the
bytes to skip (C05, C06); a packet of the same length after an unknown one is lost (C05); an automatic tag may collide with a later
explicit one (C07: refused); `Deserialize` of a truncated buffer never returns (C52); a rejected assignment is stored and sent (C10).
Streams: `MinimumCopyingStreamIO` is wrong at chunk boundaries and gives `''` (C24). Framing: no progress after a bad prefix check sum
(C15), a read over the end of the payload gets delimiter bytes (C14).
Data structures: iterating a Bijection raises. Registry: `findCompatibleVersion` is undefined (C20, C53), MOST_RECENT
fails for negative versions (C20), an explicit DEFINITIONS_SILO_NAME raises (C21).
Addresses/switch: negative parts are accepted and make the forwarding raise (C25, C28); non canonical registrations never match (C27).
Fragments: stale data is delivered again (C29); identifiers of two senders may coincide (C30).
VNIC: a connection whose callback is still opening survives the close of its socket (C34); malformed open packets get no response
(C35); all ports in use: endless loop (C31); client: unknown announcement raises (C36); callback service keyed by the port number only (C37); a second
switch connection makes the level unusable (C38).
Protocols: late listener, shared transport, second `connection_made` (C46); empty and nested stacks (C47).
Framed packets: an intact frame after garbage is lost when the adapter had already taken its first 12 bytes (C54).
WAN: a failing `setDirectConnections` leaves routes stale (C40). Packets never get further than one hop, since the switches in between
are plain switches (C56); a connection configured from both sides carries packets twice, and a removed one still carries them in one
direction, since `destroyDirectLink` closes one end only (C56); announcing an address takes the location away (C56); the prefix 0 is no
next hop (C56); a link whose announcement is lost by the simulated loss is dead for good (C56).
Timer reuse (C42); line length at the boundary depends on the cut (C43); cipher objects handle one message, and not their own (C45);
unreliable switch: changing settings raises (C48), independence of the cut fails after the horizon (C48).
PNMS: unparsable routes make lookups raise, removals are not saved (C49); waiting devices and dependants (C50).
SPMP: exceptions without message count as success, long results get no response, stale answers, requests without args raise (C44);
after an exception packets that arrived with the culprit wait for more bytes, and a wrapper without payload destroys a request (C57).
Switch over byte streams: a large message is delivered with the data of another packet, or never, when other messages arrive in the same
chunk (C58, C29); a destination like `-1.1.1.1` makes the switch raise and the packets behind it wait (C58).
Network configuration: a removed route is back in the next process; a device whose name is not in lower case makes every later command fail;
saving truncates the file first; removing a device is saved in two steps (C59).
Sockets: nobody is told of a connect or a close at the other end, a connect needs no peer, data after a close opens a new connection in the middle
of a stream, a promiscuous VNIC can accept and answer connections to others (C60).
Connector: connection ids are per control connection but the callback service is shared, so calls over two VNICs (or a server and a
client started together) return or close each other's connections (C61, C63); `notify` wakes one waiter for any connection, so
concurrent `create_connection` calls lose wake-ups and hang without a timeout (C62); a failed dial leaves "CONNECTING" behind and
all later calls poll forever, a lost control connection is never replaced (C62); connections of calls that timed out, or announced
before a server is closed, stay open with nobody holding them (C61, C63).
Shell: empty arguments are dropped, so that another callback or none runs; a trailing escaped blank makes the line fail (C66); without arguments and default a
command prints "requires arguments" and then goes on to a second error. A batch stops after the first command that returns nothing to await (all of the shell's
own), and at blank lines (C67).
VNIC daemon: an exception while writing the status file at the loss of the link can keep it from ever reconnecting (C68); the file is emptied
before it is written, a switch whose name contains `disconnected` is always reported Failed, a write cut short leaves a wrong port (C69).
Logging: filters are never detached from the stderr handler, so what MAX adds is not shown after TEST; added modules stay when a lower level is
set; `asyncio`'s own logger is never written (only loggers below it); an unknown level raises and turns logging off (C70).
Connectors: without a Playground directory getConnector raises even for connectors set by the program; a load broken off in the middle leaves the
service in loading mode; sys.path is not restored (C71). Configuration: `__exit__` takes no arguments, so `with` always raises; reload never
updates the time it compares with (C73).
WAN management: add-switches is not atomic; remove-switches does nothing and answers [None]; set-location to an unknown prefix answers Changed and cuts the device off;
after a failed set-direct-connections the routes are stale; get-log-level says NONE at the beginning although the preset in force is another (C74).
Switch management: each announcement of a link stacks another pair of transports, so errors multiply or cancel and delays add; a negative horizon is accepted and then packets are lost and
announcements ignored; a change of the error rate can lose packets; a delay rate set by a request is an integer, so it delays all packets or none; there is no security policy: any peer may manage (C75).
Choice of the interface: read once per process; `localhost` follows the routes; the location (None, None) of a disabled interface passes the check in create_playground_connection, and the connector
then waits forever at the next call; host strings are compared as they are; raw_vnic_connection with a name is a NameError (C76).
On and off: a dead switch makes the next command, whichever it is, end the processes of the interfaces on it, so that `on` has to be called twice; the first exception ends the loops; removed devices keep running (C77).
Mock transports: delays do not work with the test loop, whose `call_later` takes the data for its list of arguments; data under way is lost when the other end closes; an exception in `connection_lost` keeps the other protocol from being told (C78).
Managing a VNIC: `get-log-level` says NONE while everything is logged; a refused `set-log-level` turns logging off; the first request for level 0 announces the address again (C79).
Stacks: an exception in a protocol above the callback connection is logged and the data that was being passed up is lost although the connection goes on; layers that pass up several pieces reorder if re-entered from below (C80).
Floats: FLOAT32 refuses numbers above 2^32 - 1 and FLOAT64 above 2^64 - 1, also infinity, but accepts minus infinity and -1e39, which FLOAT32 cannot send; 4294967295.0 in a FLOAT32 field makes a packet that every receiver refuses (C81).
Received packets: a packet may arrive without its required fields; it cannot be sent on (C82).
Addresses: a dictionary given to two StackingTransports is shared; get_extra_info ignores its default for names the lower transport lacks; peername can be forged with raw packets (C83).
Packets as objects: a struct assigned to two packets is shared; sharing after `p.l = q.l` depends on prior equality; `p.l = p.l` empties a list with a NaN; -0.0 is not copied over 0.0; a refused list assignment loses the old elements and keeps the refused one (C84).
pnetworking: `status <device>` and `routes` always fail; a command that raises can have exit status 0; a port that is no number is accepted and makes `status` fail for all devices; stale process numbers are shown (C85).
Equality: a packet with a NaN is not equal to itself, 0.1 in a FLOAT32 field is not equal to what arrives, equal packets with zeros may have different bytes (C86).
Order: a struct that comes twice is merged; a buffer behind a nested packet can be unreadable where it is readable before it (C87).
Queries: a response wakes only the first waiting call, so calls at the same time can hang with their answers there; a lost connection wakes nobody (C88).
Completion: a file name with a blank is offered unquoted and cannot be entered; a relative path is replaced by an absolute one; a TypeError ends the list below the first name (C89).
Terminal: a command that returns a true value which is no future (also the project's own `Deferred`) leaves the shell without a prompt for ever; a line being typed while the terminal is closed still runs (C90).
Queries from end to end: a refused request is never answered and its call never returns; a reused random id returns the old answer (C91).
Dumping: only arriving packets are copied; `VNICDumpProtocol.write` always raises (it passes `sourceAddress` for `sourcePort`); every control connection may send raw packets with any source address (C92).
Control connections: raw packets are framed by the client but read without frames by the VNIC, so about one size in 256 is lost, and crafted data takes the commands behind it along (C93).
Client library: a call that timed out makes the handler of its late answer raise, and the other answers of that chunk are delayed until more bytes come, possibly for ever (C94).
Deferred: results and exceptions that are false values reach no function (C95).
Read-only configuration views: del, update, setdefault, pop, clear and rawSection change the section (C96).
Encoders: a field of a packet class whose first base is a struct class is sent as a struct, without identifier; LIST of a packet class itself uses the encoder of packets (C97).
Seekable streams: a read over the end of a buffer goes on at the beginning of the stream; SEEK_CUR always goes one byte on (C99).
Server sockets: the name of a connection's socket is a protocol object, so gethostname raises (C100).
Processes: a ps whose header does not begin with PID swaps alive and dead; after a crash another process with the same number gets the SIGTERM; a process that dies while it starts makes `enable` raise ProcessLookupError (C101).
Deserialize never returns for a truncated packet or fewer than 16 bytes: it spins (C102).
Device classes: permissions are inherited even when overridden; a failed definition uses up its type name (C103).
Adapters: assignments through them are lost (C104). PortKey == None raises (C105). A constant with only a text cannot be tested for truth (C106).
Certificates: a key that is not RSA makes ValidateCertChainSigs raise (C107). EncryptThenRsaSign: with keys of another size than 2048 bits nothing can be decrypted; a DefaultSign signature is not one for RSA_SIGNATURE_MAC (C108).
Log records with special data: the formatter changes `record.msg`, so with a second handler a percent sign in the data or the message is a format again, and it raises (C109).
LineReceiver in both modes: a line of the maximal length whose delimiter is divided is lost with the data after it (C110, as C43).
The client of the promiscuous level: a level that is not of 8 bits raises in connection_made, and nothing is sent; if setPromiscuousLevel raises, the level is set but the client gets no answer; in both cases it waits for ever (C111).
Shell: a command that is made its own subcommand is accepted, and then help raises for ever and does not list the commands registered after it; `help` of a command with nothing configured raises at the terminal (C112).
Logging: clearAllHandlers leaves the filters attached to the handlers; one that is enabled again writes only what both filters accept (C113, as C70).
Fields: a field with Bits n takes 2^n but no copy of it does, and a copy given other Bits keeps the old maximum (C114); PacketFieldType.CreateInstance with a field calls `clone`, which does not exist.
