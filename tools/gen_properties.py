#!/usr/bin/env python3
"""Writes /verif/properties.jsonl (one JSON object per line)."""
import json, os
P = []
S = "src/playground/"
def p(title, statement, quantifier, why, anchors):
    P.append(dict(id="C%02d" % (len(P)+1), title=title, statement=statement,
                  quantifier=quantifier, why_tests_cant=why, anchors=anchors))

ENC = S+"network/packet/encoders/PlaygroundStandardPacketEncoder.py"
FRM = S+"network/packet/encoders/PacketFramingStream.py"
PT  = S+"network/packet/PacketType.py"
FT  = S+"network/packet/fieldtypes/"
# --- packet codec -----------------------------------------------------------
p("Packet serialization round trip",
  "For every packet whose class is registered and which __serialize__ accepts, decoding the produced bytes with Deserialize yields a packet equal to the original (same class, every field equal, unset optional fields still unset).",
  "all packet definitions (any fields: unsigned, signed, bool, string, buffer, lists, nested PacketFields, nested packets, optional and explicitly tagged fields) and all field values",
  "Field trees, list lengths and payloads are unbounded; a test only samples some packets.",
  [ENC+":PacketEncoder", ENC+":PacketFieldsEncoder", ENC+":ListEncoder", PT+":PacketType.Deserialize", PT+":Serializable.__serialize__"])
p("Deserializer delivers exactly the sent packets under any chunking",
  "If the bytes fed to a Deserializer by successive update() calls are, concatenated, the serializations of packets p1..pn (each of which Deserialize decodes back to itself, see C01), then the packets returned by the nextPackets() calls are, concatenated, exactly p1..pn, in order, with no errors, however the bytes were cut into chunks and wherever nextPackets() was called in between.",
  "all packet sequences and all ways to split their bytes into (possibly empty) chunks",
  "There are exponentially many splits of a byte stream; every suspension point of the decoding generator must resume correctly.",
  [PT+":PacketType.Deserializer", PT+":PacketType.DeserializeStream", ENC+":EncoderStreamAdapter.unpackIterator"])
p("No premature packet",
  "As long as fewer bytes than a complete serialized packet (one that Deserialize decodes back to itself, see C01) have been received, nextPackets() yields nothing and reports no error.",
  "all packets and all strict prefixes of their serialization, in any chunking",
  "Every strict prefix of every packet is a separate case.",
  [PT+":PacketType.Deserializer", ENC+":EncoderStreamAdapter.unpackIterator"])
p("Resynchronisation after garbage",
  "Garbage bytes in front of a valid serialized packet are skipped and the packet is delivered, provided that no 16-byte window starting inside the garbage happens to be a number followed by its bitwise complement.",
  "all garbage byte strings satisfying the side condition and all packets",
  "The garbage ranges over all byte strings.",
  [ENC+":PacketEncoder.decodeIterator"])
p("An undecodable packet does not destroy its successor",
  "When a complete packet of an unknown definition is followed by a valid packet, the error is reported once and the valid packet is delivered.",
  "all unknown packets and all valid packets following them, any chunking",
  "The outcome depends on the bytes of both packets and on where the stream was cut.",
  [PT+":PacketType.Deserializer.nextPackets", ENC+":PacketEncoder.decodeIterator"])
p("Unknown extension fields are skipped",
  "A packet that carries, after its known fields, an unknown field with tag >= 200 is delivered with its known fields intact, the rest of its bytes are skipped, and the bytes after the packet are untouched; an unknown tag < 200 is an error.",
  "all packets, all unknown tags and all trailing extension bytes",
  "Forward compatibility has to hold for extensions that do not exist yet.",
  [ENC+":PacketFieldsEncoder.decodeIterator", ENC+":PacketEncoder.decodeIterator"])
p("Field tags identify fields uniquely",
  "For every field list that the encoder accepts, distinct fields get distinct tags, a field with an ExplicitTag gets exactly this tag, and a tag on the wire resolves to the field it was assigned to; a list with a repeated name or a repeated explicit tag is refused.",
  "all lists of (name, optional explicit tag)",
  "Automatic and explicit tags interact along the whole list.",
  [ENC+":PacketFieldsEncoder._processFields"])
p("No packet with an unset required field is serialized",
  "__serialize__ succeeds only if every field not marked Optional is set, recursively through nested PacketFields, lists and packets.",
  "all packet definitions and all partially filled packets",
  "The nesting is unbounded.",
  [ENC+":PacketFieldsEncoder.encode"])
p("Width of integer fields",
  "A UINT8/16/32/64 field (inside a packet) accepts exactly the integers 0..2^n-1, occupies exactly n/8 bytes big-endian on the wire, and any Uint with a MaxValue decodes every value it accepted back to the same value. A signed field that accepts a value can encode it and decode it back.",
  "all integers and all MaxValue/Bits attributes",
  "The ranges are astronomically large and the boundaries depend on the attribute.",
  [ENC+":UintEncoder", ENC+":IntEncoder", FT+"attributes/scalar_validators.py", FT+"PacketFieldType.py"])
p("A rejected assignment leaves the field unchanged",
  "If assigning to a packet field raises, the field keeps its previous value.",
  "all field types, previous values and rejected values",
  "Quantifies over all pairs of old and rejected value.",
  [FT+"PacketFieldType.py:setData", FT+"Uint.py", FT+"ListFieldType.py"])
p("String fields carry every string",
  "Every string of at most 65535 bytes that a STRING field accepts and that __serialize__ encodes is received unchanged.",
  "all unicode strings",
  "Unicode strings are unbounded.",
  [ENC+":StringEncoder"])
p("Serialized size and self-description",
  "The first 8 bytes of a serialized packet are its total length, the next 8 the bitwise complement, followed by length-prefixed identifier and version; hence no serialized packet is a strict prefix of another and a receiver can delimit packets without knowing their definition.",
  "all packets",
  "Holds for all packets, including unknown ones.",
  [ENC+":PacketEncoder.encode"])
p("A nested packet does not affect the decoding of the fields after it",
  "Whether a field can be decoded does not depend on the length of a nested packet decoded before it in the same enclosing packet.",
  "all packets containing nested packets",
  "Depends on the relation between two unbounded sizes.",
  [ENC+":PacketEncoder.decodeIterator", ENC+":EncoderStreamAdapter.set_max_size"])
# --- framing ---------------------------------------------------------------
p("Frame round trip",
  "For every payload written through the framing adapter (in any sequence of writes) and closed with writeFrame, a reader over the produced bytes reads back exactly the payload and closeFrame leaves it directly behind the frame.",
  "all payloads below 2^32 bytes, all positions of the frame in the stream, all following bytes",
  "Payloads are unbounded.",
  [FRM+":PacketFramingStreamAdapter"])
p("Corrupted frame delimiters are rejected",
  "If the magic number, the size or the check sum in the frame prefix or in the suffix is not what writeFrame produces, the adapter raises as soon as the bytes in question are there instead of delivering (more); after raising, the stream is positioned at the next magic number or at the last 3 bytes of the stream.",
  "all streams",
  "All corruptions of all frames.",
  [FRM+":_checkStreamStart", FRM+":_checkStreamEnd", FRM+":_fail"])
# --- data structures ---------------------------------------------------------
BIJ = S+"common/datastructures/Bijection.py"
p("Bijection is one-to-one after any history",
  "After any sequence of assignments and deletions through a Bijection or its mutable inverse, b[k]==v exactly when b.inverse()[v]==k; the last assignment of k or v wins and removes conflicting pairs; both directions have the same length.",
  "all operation histories over all keys and values",
  "Histories are unbounded.",
  [BIJ+":Bijection.__setitem__", BIJ+":Bijection.__delitem__", BIJ+":Bijection.inverse"])
p("Immutable views cannot change a Bijection",
  "No operation through a view reached by inverse() changes the mapping; each mutation attempt raises TypeError; and inverse of inverse reads like the original.",
  "all histories of view navigation and operations",
  "All paths through the view graph.",
  [BIJ+":mutable", BIJ+":Bijection.__init__"])
HD = S+"common/datastructures/HierarchicalDictionary.py"
p("HierarchicalDictionary behaves as a flat dictionary",
  "Under any history of store/delete/lookup, a HierarchicalDictionary with the default key handler behaves as an ordinary dict keyed by the full string: lookups return the last stored value, deleted keys raise KeyError, a prefix and its extension are independent keys.",
  "all histories over all string keys",
  "Key hierarchies are unbounded in depth and breadth.",
  [HD+":lookupByKeyParts", HD+":storeByKeyParts", HD+":deleteByKeyParts"])
p("HierarchicalDictionary iteration and length",
  "Iteration yields each present key exactly once and nothing else, and len() is the number of keys present.",
  "all histories",
  "As above.",
  [HD+":iterKeys", HD+":__len__"])
REG = S+"network/packet/PacketDefinitionRegistration.py"
p("Definition registry returns what was registered",
  "getDefinition(id, version) returns the definition last registered for (id, version) and None when there is none; with MOST_RECENT it returns the one with the greatest version; registration of one identifier never changes the lookup of another.",
  "all registration histories",
  "Histories of registrations with arbitrary versions are unbounded.",
  [REG+":PacketDefinitionRegistration", PT+":PacketDefinitionLoader.__new__"])
p("Silos are properly nested",
  "After leaving every silo that was entered, the current silo is the one before; definitions made inside a silo are not visible outside it.",
  "all well-nested enter/exit/register histories",
  "Unbounded nesting.",
  [REG+":PacketDefinitionSilo"])
p("Version strings",
  "FromString(str(v)) == v for every version and FromString accepts exactly the strings with two integer parts.",
  "all versions / all strings",
  "Infinite domain.",
  [S+"common/Version.py"])
IO = S+"common/io/HighPerformanceStreamIO.py"
p("Update stream is a FIFO",
  "For the default HighPerformanceStreamIO, after any interleaving of update/read/peek, the bytes returned by reads concatenated with the bytes still available are the bytes of all updates in order; peek(n), n not 0, returns what the next read(n) returns and consumes nothing (peek(0) returns everything that is available).",
  "all interleavings of update, read(n), peek(n)",
  "Interleavings are unbounded.",
  [IO+":UpdateableBytesIO"])
p("The minimum-copying stream equals the standard stream",
  "MinimumCopyingStreamIO returns the same bytes as the standard strategy for every interleaving of update, read and peek.",
  "all interleavings and chunk sizes",
  "As above; needs reads spanning several chunks.",
  [IO+":MinimumCopyingStreamIO"])
# --- addresses / switch ----------------------------------------------------
AD = S+"network/common/PlaygroundAddress.py"
p("Address parsing and printing",
  "For every address (4 non-negative integers) FromString(str(a)) == a; for every block likewise; a string is accepted by FromString only if it has four dot separated parts each convertible; equality with strings is equality of the canonical form.",
  "all addresses and blocks, all strings",
  "Infinite domain.",
  [AD+":PlaygroundAddressType", AD+":PlaygroundAddress", AD+":PlaygroundAddressBlock"])
p("Parent blocks",
  "Iterating getParentBlock from an address visits exactly a.b.c.d, a.b.c.*, a.b.*.*, a.*.*.*, *.*.*.* and then None; each is a parent block (isParentBlock) of the address; isParentBlock agrees with 'matches component-wise up to wildcards'.",
  "all addresses and blocks",
  "Infinite domain.",
  [AD+":getParentBlock", AD+":isParentBlock"])
SW = S+"network/devices/switch/Switch.py"
p("Switch forwards to exactly the registered links",
  "A packet for destination address a is forwarded to exactly those links whose most recent valid registration (not followed by unregistration) is the canonical string of a or of one of its enclosing blocks a.b.c.*, a.b.*.*, a.*.*.*, *.*.*.*, once to each.",
  "all histories of registerLink/unregisterLink and all destinations",
  "Unbounded histories of announcements and disconnections.",
  [SW+":Switch.registerLink", SW+":Switch.unregisterLink", SW+":Switch.getOutboundLinks"])
p("Invalid addresses are ignored by the switch",
  "Registering an invalid address string changes nothing, and packets to invalid destinations go nowhere.",
  "all strings, all switch states",
  "All strings.",
  [SW+":Switch.registerLink", SW+":Switch.getOutboundLinks"])
# --- fragmentation ----------------------------------------------------------
SWP = S+"network/protocols/switching.py"
p("Fragmented messages are reassembled",
  "A message of any size written to the link is delivered to the receiving demuxer exactly once, with the same bytes and the same source/destination, whatever the order in which its fragments arrive and whether fragments are duplicated before completion.",
  "all messages, all permutations with duplicates of the fragments, all placements into data_received batches",
  "Factorially many arrival orders.",
  [SWP+":PlaygroundSwitchTxProtocol.write", SWP+":PlaygroundSwitchTxProtocol._data_received", SWP+":FragStorage"])
p("Interleaved messages do not disturb each other",
  "Packets of other messages (different fragment id, or unfragmented) arriving between the fragments of a message do not change what is delivered for it, and each delivery carries the header of the packet completing it.",
  "all interleavings of packets of several messages",
  "Exponentially many interleavings.",
  [SWP+":PlaygroundSwitchTxProtocol._data_received"])
# --- VNIC ---------------------------------------------------------------------
VN = S+"network/devices/vnic/VNIC.py"
p("Outbound ports are unique and in range",
  "Every port given to an outbound socket is in 2000..65534, is not in use at that moment by any other socket, and a listening port is granted only if it is not in use; so no two open sockets ever share a port.",
  "all histories of opening and closing sockets",
  "Unbounded histories; depends on generator state.",
  [VN+":_freePortsGenerator", VN+":createOutboundSocket", VN+":createInboundSocket", VN+":closePort"])
p("VNIC delivers data to the matching connection in order",
  "Data arriving for an existing connection (address/port pair on both ends) is delivered to that connection only; data arriving before the callback connection exists is buffered and written first; the byte stream the application sees is the concatenation of the data in arrival order.",
  "all interleavings of arrivals with callback completion",
  "Asynchronous completion may occur between any two arrivals.",
  [VN+":VNIC.demux", VN+":ConnectionData"])
p("Only listening ports accept new connections",
  "Data for an unknown connection creates a connection if and only if the destination port is a listening port; otherwise it is dropped and no state changes.",
  "all VNIC states and packets",
  "All states.",
  [VN+":VNIC.demux"])
p("Closing a socket closes its connections and frees the port",
  "After a socket is closed (by close packet or loss of the control connection), its port is free again, none of its spawned connections remains open, and closing again has no effect.",
  "all histories including closes racing with connection completion",
  "Closing is re-entrant (circular callbacks) and races with pending connections.",
  [S+"network/protocols/vsockets.py:SocketControl", VN+":closeConnection", VN+":closePort"])
VS = S+"network/protocols/vsockets.py"
p("Each open request gets exactly one matching response",
  "Each VNICSocketOpenPacket (connect or listen) is answered by exactly one response with the same ConnectionId; it reports failure exactly when the id is in use or the port is taken, and a successful listen reports the requested port.",
  "all sequences of control packets",
  "Unbounded histories.",
  [VS+":VNICSocketControlProtocol.socketOpenReceived"])
p("Client futures resolve at most once, with their own connection",
  "Connection ids issued by the client are distinct; each connect/listen future is resolved at most once, and only by a response carrying its id; the responses may come in any order; responses with unknown ids are ignored.",
  "all interleavings of requests and responses",
  "Asynchronous interleavings.",
  [VS+":VNICSocketControlClientProtocol"])
p("Callback connection and announcement may come in any order",
  "The application stack is built exactly once for a spawned connection when both the data connection and the control announcement have arrived, in whichever order; data received earlier is delivered afterwards in order.",
  "all interleavings of the two events and data arrivals",
  "Asynchronous interleavings.",
  [S+"network/devices/vnic/connect.py:CallbackService", VS+":VNICCallbackProtocol"])
p("Promiscuous level",
  "After setPromiscuousLevel(l) the VNIC announces the address with the last min(l,4) components replaced by wildcards, so the switch forwards to it all packets within this block.",
  "all levels and addresses, all connection histories",
  "All integers and addresses.",
  [VN+":setPromiscuousLevel", VN+":_updateRegisteredAddress"])
# --- routing -------------------------------------------------------------------
WAN = S+"network/devices/routing/HierarchyWAN.py"
p("WAN routes are real paths",
  "After any history of registrations and connection changes, each route returned by getRoute(src,dst) is a path of direct connections from src to dst.",
  "all WAN histories",
  "All graphs and all update histories.",
  [WAN+":updateAllPairsShortestPaths", WAN+":setDirectConnections"])
p("WAN routes are shortest",
  "getRoute(src,dst) has the minimal number of hops among all paths and is empty exactly when dst is unreachable.",
  "all graphs",
  "All graphs.",
  [WAN+":updateAllPairsShortestPaths"])
p("Hop by hop forwarding terminates",
  "Following nextHop from src towards dst reaches dst in len(getRoute(src,dst)) steps (no routing loops).",
  "all graphs",
  "All graphs and pairs.",
  [WAN+":nextHop"])
# --- infrastructure ---------------------------------------------------------------
p("Timer fires once and not early",
  "A started timer fires exactly once, never before its period has passed, an extension postpones it by the extension after the original deadline, cancel before the deadline prevents it.",
  "all interleavings of extend/cancel/expire with the passage of time",
  "Continuous time and unbounded histories.",
  [S+"common/Timer.py"])
p("Line splitting is independent of chunking",
  "The lines handed to lineReceived by the shell's line protocol depend only on the concatenation of the received chunks (as long as the maximum line length is not exceeded).",
  "all byte strings and all chunkings",
  "Exponentially many chunkings.",
  [S+"common/io/ui/CLIShell.py"])
SP = S+"network/protocols/spmp.py"
p("Unauthorized management requests have no effect",
  "A management request from an unauthorized peer is never executed and gets no answer; each authorized request gets exactly one response with its request id, carrying either the result or an error.",
  "all request sequences",
  "Unbounded request histories.",
  [SP+":SPMPServerProtocol"])
CU = S+"common/CipherUtil.py"
p("Encrypt-then-MAC",
  "decrypt(encrypt(m)) = m for every m; if the MAC does not verify decrypt returns None and the cipher is not applied.",
  "all messages, keys and ciphertexts",
  "Infinite domain.",
  [CU+":EncryptThenMac"])
p("Event observers",
  "Every listener registered for a protocol event and not removed since receives each event exactly once per occurrence; removed listeners receive none.",
  "all histories",
  "Unbounded histories.",
  [S+"network/common/Protocol.py:ProtocolObservation"])
p("Protocol stacks keep their order",
  "A stacking factory connects the layers in the given order, data received travels upwards and writes travel downwards through all of them.",
  "all stacks",
  "Unbounded stack heights.",
  [S+"network/common/Protocol.py:StackingProtocolFactory"])
p("The unreliable switch corrupts only the chosen bytes",
  "The corrupting transport preserves the length and order of writes and changes exactly the bytes at the selected positions, independently of how the stream was cut into writes.",
  "all writes and all selections",
  "All chunkings.",
  [S+"network/devices/switch/UnreliableSwitch.py:ConstantErrorTransport.write"])
PN = S+"network/devices/pnms/"
p("Route table of a network",
  "getRoutingDevice returns the device of the first configured route that matches the address, otherwise the default route.",
  "all route configurations and addresses",
  "Unbounded configurations.",
  [PN+"NetworkManager.py:RoutesView"])
p("Device enable state machine",
  "A device becomes ENABLED only when toggled on with all its dependencies enabled; disabling it always leaves it DISABLED; dependants are notified.",
  "all histories of toggles and dependency changes",
  "Unbounded histories.",
  [PN+"PNMSDevice.py:_runEnableStatusStateMachine"])
# --- additions found while modelling -------------------------------------------
p("nextPackets always terminates",
  "Whatever bytes a Deserializer has received (valid, truncated, corrupted or hostile) and however they were chunked, each nextPackets() call terminates, and the total number of packets delivered plus errors reported is at most the number of bytes received.",
  "all byte strings, all chunkings, all registries of definitions",
  "The adversary chooses the bytes; loops in the decoder depend on length fields found in them.",
  [PT+":PacketType.Deserializer.nextPackets", PT+":PacketType.DeserializeStream", ENC+":PacketEncoder.decodeIterator"])
p("Deserialize of a truncated buffer",
  "Deserialize applied to a strict prefix of a serialized packet neither returns a packet nor raises: it waits for bytes that cannot come (a caller has to make sure that the buffer is complete).",
  "all packets and all strict prefixes",
  "Non-termination cannot be observed by a test.",
  [PT+":PacketType.Deserialize", ENC+":EncoderStreamAdapter.unpackIterator"])
p("Defining several versions of a packet",
  "In one silo the first class defined for a packet identifier is accepted, defining the same version again raises the duplicate error, and any other version of the same identifier can be defined besides it.",
  "all sequences of packet class definitions",
  "All orders of imports.",
  [PT+":PacketDefinitionLoader.__new__", S+"network/packet/PacketDefinitionRegistration.py:PacketDefinitionRegistration.getDefinition"])
FR=S+"network/packet/encoders/PacketFramingStream.py"
p("Framed packet streams",
  "Packets whose encoder is the framing encoder (the switching packets), written one after the other to a connection, are delivered by a Deserializer in order, each exactly once and with its original field values, however the bytes are chunked.",
  "all lists of packets and all chunkings",
  "Unbounded number of packets and of ways to cut the byte stream.",
  [S+"network/packet/encoders/PlaygroundFramingPacketEncoder.py:PlaygroundFramingPacketEncoder", FR+":PacketFramingStreamAdapter", PT+":PacketType.Deserializer"])
p("A wrong packet length is an error",
  "A packet whose header announces a different length than its fields take, and which has no unknown extension field, is reported as an error and not delivered; if the announced bytes are there, exactly those are skipped and the packets behind are delivered.",
  "all packets, announced lengths, surplus bytes and later packets",
  "Unbounded lengths and contents.",
  [ENC+":PacketEncoder.decodeIterator", PT+":PacketType.Deserializer"])
WN=S+"network/devices/routing/"
p("A WAN carries packets between located devices",
  "In a WAN of prefixes with direct connections, a packet that a connected device located at one prefix sends is delivered exactly once to each device that announced its destination (or a block around it) and is located at the prefix of the destination's zone, as long as the WAN has a route there; devices without a location neither get nor reach anything, and no device elsewhere gets anything.",
  "all histories of registering prefixes, changing direct connections, connecting, announcing, locating, losing devices and sending, with all losses on the links",
  "Unbounded number of prefixes, devices and changes; deliveries depend on the whole history of links made and closed.",
  [WN+"HierarchyWAN.py:HierarchyWAN", WN+"HierarchyRouter.py:HierarchyRouter", S+"network/protocols/switching.py:PlaygroundSwitchRxProtocol"])
p("One framed connection for management and switching",
  "On a connection with a framed-protocol adapter the management protocol gets exactly the payloads of the management wrappers and the device's own protocol exactly the other packets, each once, unchanged and in order, however the bytes are chunked and however requests are cut into wrappers; every authorized request is carried out once and in order, its response comes back in a wrapper and reaches the query that asked, whatever the device sends in between; and no bytes of an unauthorized peer make the device do anything.",
  "all packet sequences, chunkings, device functions and protocols; for the last part all byte strings",
  "Unbounded interleavings of two packet streams and of two layers of chunking; the adversary chooses the bytes.",
  [S+"network/protocols/spmp.py:FramedProtocolAdapter", S+"network/protocols/spmp.py:FramedTransport", S+"network/protocols/packets/management.py:FramedSPMPWrapper"])
p("Messages between devices on a switch, over byte streams",
  "Devices connected to one switch over byte streams: whatever the chunking in both directions, the switch acts on exactly what each device wrote, in order; a message written by a device that is connected, to an address the registered address of another device covers, makes the demultiplexer of that device called exactly once with the ports and the data, in order per sender, and no other device's; messages of more than 2^16 bytes are put together again.",
  "all histories of connecting, announcing, writing messages of any size, losing either end, timeouts of the reassembly, and all deliveries of any number of bytes in either direction",
  "Unbounded number of devices, messages and interleavings of three layers of cutting: fragments, frames, chunks.",
  [S+"network/protocols/switching.py:PlaygroundSwitchRxProtocol", S+"network/protocols/switching.py:PlaygroundSwitchTxProtocol", S+"network/protocols/packets/switching_packets.py:WirePacket", S+"network/devices/switch/Switch.py:Switch"])
PN=S+"network/devices/pnms/"
p("Commands on the network configuration",
  "Every pnetworking command that adds, removes or configures a device either succeeds and does what it says or fails and changes nothing; after any sequence of commands, each a process of its own, a new process loads the configuration without an error and shows exactly the devices with their settings, the connections and the routes that the successful commands describe, with nothing that refers to a removed device; and a command that is killed leaves the network before it or the one after it.",
  "all sequences of commands with all names, types, arguments and routes, and all points at which a command may be killed",
  "Unbounded histories of processes that communicate through one file; crash points.",
  [PN+"NetworkManager.py:NetworkManager.addDevice", PN+"NetworkManager.py:NetworkManager.removeDevice", PN+"NetworkManager.py:NetworkManager._loadDevices", PN+"InterfaceDevice.py:InterfaceDevice.config", PN+"NetworkAccessPoint.py:NetworkAccessPointDevice.initialize", PN+"pnetworking.py:PnetworkingInterface", S+"common/Configure.py:PlaygroundConfigFile.save"])
VN=S+"network/devices/vnic/"
p("A socket is a byte stream between two VNICs on a switch",
  "Applications on VNICs attached to one switch: whatever one end of a connection writes arrives at the application that accepted the connection at the addressed VNIC and port, in order, none lost, duplicated, reordered, altered or mixed with bytes of other connections; at every moment it has got a prefix of what was written, and all that was written can still arrive. The other end learns when a connection is made or closed.",
  "all histories of events in all VNICs (sockets opened, accepted, closed, control connections lost, data sent), of attaching and detaching, and all deliveries of any number of bytes in either direction of every connection",
  "Unbounded number of VNICs, connections and interleavings; several layers (sockets, fragments, frames, chunks, routing) have to cooperate.",
  [VN+"VNIC.py:VNIC.demux", VN+"VNIC.py:VNIC.write", S+"network/protocols/vsockets.py:SocketControl", S+"network/protocols/switching.py:PlaygroundSwitchTxProtocol", S+"network/devices/switch/Switch.py:Switch"])
p("create_connection returns a connection of its own",
  "Whenever create_connection returns, the protocol it returns was made by the factory given to this call, has had its connection_made, and is returned by no other call; a call that raises leaves no connection behind.",
  "all histories of calls of create_connection and create_server over any number of VNICs, of packets of the VNICs and callback connections, and all orders of coroutines, timeouts and notifications",
  "Unbounded number of concurrent calls sharing one callback service; the outcome depends on the order of tasks.",
  [VN+"connect.py:PlaygroundConnector.create_playground_connection", VN+"connect.py:CallbackService", VN+"connect.py:ConnectionMadeObserver"])
p("create_connection completes",
  "create_connection returns or raises: when the VNIC has spawned the connection and its callback connection is there, the call returns it; when the VNIC cannot be reached, or the control connection is lost, this call or later ones raise or connect anew.",
  "all histories of calls, packets, callback connections, failed and lost connections and all schedules",
  "Liveness: no finite run shows that a call never ends; depends on lost notifications.",
  [VN+"connect.py:PlaygroundConnector.create_playground_connection", VN+"connect.py:CallbackService.waitForConnections", S+"asyncio_lib/SimpleCondition.py:SimpleCondition"])
p("Closing a server closes its own connections",
  "PlaygroundServer.close tells the VNIC to close the server's port and closes exactly the open connections accepted by this server; a second close does nothing.",
  "all histories of calls, connections and schedules, over any number of VNICs",
  "Unbounded number of servers and connections that share one callback service.",
  [VN+"connect.py:PlaygroundServer.close", VN+"connect.py:CallbackService.getConnections"])
p("An application and its socket",
  "A process with a connector at a VNIC that other processes use too: the application made for a call of create_connection is on a callback connection whose socket goes to exactly the destination and port of this call, an application made for create_server on a connection accepted at the port of this call; no two applications share a connection. The application always has a prefix of what the VNIC got for this socket, the VNIC a prefix of what the application wrote, and both can get the rest while the connection lasts.",
  "all histories of calls, packets and bytes arriving in any portions on any of the TCP connections between the process and the VNIC, of their losses at either end, of everything other processes do at the VNIC and everything that comes from the switch",
  "Two state machines and an unbounded number of TCP connections between them, with all interleavings; the pairing of the two by TCP port and connection id is decided by races.",
  [VN+"connect.py:PlaygroundConnector", VN+"connect.py:CallbackService", VN+"VNIC.py:VNIC.createOutboundSocket", S+"network/protocols/vsockets.py:VNICSocketControlProtocol", S+"network/protocols/vsockets.py:VNICCallbackProtocol"])
p("Applications talk over sockets",
  "An application made by create_connection at one VNIC and the one made by create_server at the addressed VNIC, both VNICs attached to one switch: at every moment each has got a prefix of exactly what the other one wrote on its connection, and all of it when all bytes have arrived, whatever other processes, VNICs and connections do.",
  "all histories of all processes, VNICs, links and the switch: calls, packets, callback connections, bytes arriving in any portions on every TCP connection (process to VNIC, VNIC to switch and back), connections accepted and lost",
  "Five layers of state machines (connector, VNIC sockets, fragments, framing, switch) with unboundedly many connections and all interleavings.",
  [VN+"connect.py:PlaygroundConnector", VN+"VNIC.py:VNIC", S+"network/protocols/vsockets.py:VNICSocketControlProtocol", S+"network/protocols/switching.py:PlaygroundSwitchTxProtocol", S+"network/devices/switch/Switch.py:Switch"])
CLI=S+"common/io/ui/CLIShell.py"
p("A line typed into the command shell runs the command it names","A line typed into `CLIShell` is split into words as a POSIX shell does (quotes, backslashes). If the first word is the name of a registered command, then exactly the callback that was configured for the further words runs, once: the default callback of a singleton command with all of them, of a standard command the one configured for their number, of a command with subcommands what the next word means; the arguments are the words, after the argument handler. The result is that of the callback. Any other line runs nothing and fails. Every list of words can be typed. Registering and configuring raise exactly for names that are taken or reserved, wrong modes and wrong counts, then change nothing, and never change what another line means; help, batch and quit always work, and help knows exactly the registered commands.",
  "all lines, all trees of commands, all behaviours of callbacks and argument handlers, all histories of registrations and lines","tests type a few lines; this is about every string, every list of words, and every order of registrations",
  [CLI+":CLICommand.process",CLI+":CLICommand.configure",CLI+":CLICommand.configureSubcommand",CLI+":CLIShell.registerCommand",CLI+":CLIShell.lineReceivedImpl"])
p("A batch file runs line by line","`batch file` feeds the lines of the file to the shell in order, each exactly once and only after the command of the line before has completed; it ends when all lines have completed, or at the first line that fails, and then says so; it never waits for anything but the command it started.",
  "all files, all commands, all orders in which commands of several batches (also nested ones) complete","the order of completions of concurrent batches cannot be enumerated by tests",
  [CLI+":CLIShell.__run_batch_lines",CLI+":CLIShell.__batch"])
LV="src/entry_points/launch_vnic.py"
p("The VNIC daemon keeps one link to its switch","The daemon `launch_vnic` has at any time exactly one of: a link to the switch, an attempt to get one, a timer for the next attempt. A new attempt begins at least 30 seconds after an attempt failed and 30 seconds after a link was lost, never while there is a link or another attempt; if the switch accepts, there is a link again within 30 seconds. The daemon never closes its link; the query `switch-live` says whether there is one; on every link the address of the VNIC at its present promiscuity level is announced.",
  "all sequences of refused, accepted and lost connections, all schedules of timers, tasks and callbacks, all changes of the promiscuity level, all failures to write the status file","the schedules of connection attempts, losses and callbacks over days of operation cannot be enumerated",
  [LV+":ConnectToSwitchTask",LV+":StatusVnic",VN+"VNIC.py:VNIC.switchConnectionFactory"])
p("The status file says what the link is","The status file written by `launch_vnic` contains its port, the address of the switch and Connected exactly while there is a link; the network manager reads from it the daemon's port and reports the interface Live exactly while there is a link.",
  "all sequences of refused, accepted and lost connections, all ports and addresses, all outcomes of the writes, all moments of reading","reading and writing race; the file may be read at any moment of any history",
  [LV+":StatusManager.writeStatus",PN+"InterfaceDevice.py:InterfaceDevice.connectionStatus",PN+"InterfaceDevice.py:InterfaceDevice.tcpLocation"])
LG=S+"common/logging.py"
p("Log messages go where the log level says","After `EnablePresetLogging(level)` (or the command line's letters v) a message of a logger below `playground`, or, from VERBOSE on, of `asyncio` and of the modules that programs add, is written to stderr and to the log file exactly when its level is at least what the comments of this log level say; once each; nothing after NONE. The log level set last decides alone. A level that raises changes nothing.",
  "all histories of setting log levels and of messages, all loggers, tags and levels, all lists of added modules, all failures to open the log file","the filters attached to handlers depend on the whole history of log levels",
  [LG+":EnablePresetLogging",LG+":CmdLineToLogging",LG+":PlaygroundLoggingConfiguration.enableHandler",LG+":PlaygroundLoggingConfiguration.handle",LG+":PlaygroundLoggingFilter.logThisLogger",LG+":TaggedLogger"])
p("The connector asked for is the one used","`getConnector(name)` returns the connector set last under this name: by the program with `setConnector` at any time, or by the modules in the directory `connectors` when they were last loaded; a forced reload forgets what earlier loads set and keeps what the program set; it raises exactly when there is none. `create_connection` and `create_server` use the connector of their family argument, or of `family` in `family://host`, or the default one, and pass it the host without the family.",
  "all histories of setting, getting and loading connectors, all contents of the directory, all modules whether they raise or not, all host strings","what is in force depends on the whole history of loads and settings; hosts are arbitrary strings",
  [VN+"connect.py:PlaygroundConnectorService",VN+"connect.py:create_connection",VN+"connect.py:create_server"])
CF=S+"common/Configure.py"
p("The configuration directory","`Configure.CurrentPath()` is the first directory that exists of: the custom paths, the one added last first, the one of the environment variable PLAYGROUND_INSTANCE, the user's, the system's. Adding a path under an id in use raises and changes nothing. After `Initialize` of one of them there is a configuration directory.",
  "all sequences of custom paths, all environments, all states of the file system","the order depends on arbitrarily many added paths and on the file system",
  [CF+":Configure.CurrentPath",CF+":Configure.AddCustomPath",CF+":Configure.ConfigPath",CF+":Configure.Initialize"])
p("Configuration files","A configuration opened has the sections of its file and the default ones the file has not. What is saved is what is opened next, here or elsewhere. A file changes only by saving a configuration opened for writing, or by creating it. `reload` shows changes others have made since, and otherwise keeps changes that are not saved yet.",
  "all histories of opening, changing, reloading and saving any number of configurations, and of other processes changing the files","two processes and the clock of the file system are involved, in any order",
  [CF+":PlaygroundConfigFile.Open",CF+":PlaygroundConfigFile.reload",CF+":PlaygroundConfigFile.save"])
p("Managing a WAN","A peer on the local machine manages a WAN started by `launch_wan` with requests: `add-switches`, `set-direct-connections`, `set-location`, `get-route`, `get-routes`, `list-connections`, `get-loss-rate`, `set-loss-rate`, log levels. Each request is carried out completely or answered with an error and has no effect. `get-route` answers a shortest way along the direct connections set so far, `get-routes` all of them, `list-connections` the connected devices and where they are; the settings are what was set last. Other requests change nothing, and other peers cannot change anything.",
  "all histories of requests with any arguments, of devices connecting, announcing, sending and leaving, all ways of cutting the bytes","the state of the graph depends on the whole history of requests and devices, and the arguments are arbitrary strings",
  ["src/entry_points/launch_wan.py:SPMPWAN.buildSpmpApi",S+"network/devices/routing/HierarchyWAN.py:HierarchyWAN",S+"network/devices/routing/HierarchyRouter.py:HierarchyRouter",S+"network/protocols/spmp.py:SPMPServerProtocol"])
p("Managing a switch","A peer manages a switch started by `launch_switch` with requests: it reads and sets the log level and, on an unreliable switch, the error rate and the delay rate. A get answers what was set last; a set answers an error and changes nothing, or sets. Settings have no influence on which links a packet goes to. A packet arrives at most once on each of these links; with rates zero at once and unchanged; with a delay after its timer; with an error rate with exactly so many bytes inverted in every stretch of so many bytes; and after a change of the rates as the new rates say.",
  "all histories of requests with any arguments, of links connecting, announcing, sending, timers firing and links leaving, all draws, all ways of cutting the bytes","settings act on transports that were built under other settings, in any number on one link, with packets under way",
  ["src/entry_points/launch_switch.py:runSwitch",S+"network/devices/switch/UnreliableSwitch.py:UnreliableSwitch",S+"network/devices/switch/UnreliableSwitch.py:ConstantErrorTransport",S+"network/devices/switch/UnreliableSwitch.py:DelayTransport",S+"network/protocols/spmp.py:FramedProtocolAdapter"])
p("The interface that is used","A connection goes out through the interface of the first route that covers its destination, else through the default interface, or through the one that the call names; a server listens on the default interface, or on the one that has the given address; `localhost` is the address of the default interface, and connections to it use that interface. The interface used is one that the configuration has when the call is made, and a call for which there is none, or only one that is not enabled, fails. Calls do not change the configuration.",
  "all histories of commands on the configuration, all destinations, hosts and names, all states of the devices","the table is the result of a history of commands in other processes, and the calls range over all addresses",
  [VN+"connect.py:StandardVnicService",VN+"connect.py:PlaygroundConnector.create_playground_connection",VN+"connect.py:PlaygroundConnector.create_playground_server",VN+"connect.py:PlaygroundConnector.raw_vnic_connection",PN+"InterfaceDevice.py:InterfaceDevice.tcpLocation"])
p("Switching the network on and off","After the command on, every connected interface and every local access point that is to be enabled automatically runs, with the access points they need; on starts nothing else and stops nothing. After off, no device of the network runs; if a device cannot be stopped the command says so. enable says that a device is enabled exactly when its process runs; disable stops that device and no other; a command that only looks changes nothing.",
  "all histories of commands, edits of the file and deaths of processes, all networks, all outcomes of starting and ending processes","each command is a new process that reconstructs the state of all devices from what the previous ones and the crashes left behind",
  [PN+"NetworkManager.py:NetworkManager.on",PN+"NetworkManager.py:NetworkManager.off",PN+"NetworkManager.py:NetworkManager._loadDevices",PN+"PNMSDevice.py:PNMSDevice._runEnableStatusStateMachine",PN+"pnetworking.py:PnetworkingInterface.enable_device"])
p("Transports and a loop for tests","With a pair of mock transports each protocol receives exactly what is written on the other transport while it is open, in order, whatever the protocols do while they receive; closing tells both protocols once, and no data passes afterwards; a delay postpones data and keeps its order; a transport to a stream stores what is written; writeCount counts the writes. The test loop runs functions in the order of their times, first given first, none early, none twice, and all that are due.",
  "all tests: all protocols and functions (which may write, close and call the loop while they are called), all histories of actions, all times and delays","calls nest to any depth and the order of events is unbounded",
  [S+"network/testing/mock.py:MockTransportBase",S+"network/testing/mock.py:MockTransportToProtocol",S+"network/testing/mock.py:MockTransportToStorageStream",S+"asyncio_lib/testing/TestLoopEx.py:TestLoopEx"])
p("Managing a VNIC","Management requests on a VNIC's control connections are carried out once each, in order, between the packets of the program that has the connection: get-promiscuity-level answers the level last asked for by any way, brought into 0 to 4, and while there is a link that is the level announced to the switch; switch-live tells whether there is a link; get-log-level answers the log level in force and messages go where it says; a request that is refused changes nothing; asking for what is set changes nothing; verbs lists the verbs; the daemon dials as it does without requests.",
  "all histories of requests, control packets, links gained and lost, failures to write the status file or open the log file; all cuts of the connection's bytes","the histories are unbounded and mix three sources of changes",
  ["src/entry_points/launch_vnic.py:StatusVnic",VN+"VNIC.py:setPromiscuousLevel",S+"network/protocols/spmp.py:HiddenSPMPServerProtocol",S+"network/protocols/vsockets.py:VNICPromiscuousLevelPacket",S+"common/logging.py:EnablePresetLogging"])
p("A stack is as good as its layers","However the layers of a stack and the application are programmed - with state shared by both directions, calls from within calls, timers - every layer takes part only in histories in which its higher protocol and its lower transport behave as the interface says: what it passes up is what the next layer receives, what that writes is what it is asked to send, in the same order. So if at each level the two ends' layers turn a good connection below into a good one above, then over a good connection the two applications have a good one: each has got what the other wrote (a prefix of it, if a part of the bytes has arrived).",
  "all layers and applications, as arbitrary terminating programs; all stacks; all histories of arriving bytes, cut in any way, and of timers","the layers are other people's code and may call each other to any depth",
  [S+"network/common/Protocol.py:StackingProtocol",S+"network/common/Protocol.py:StackingTransport",S+"network/common/Protocol.py:StackingProtocolFactory",S+"network/protocols/vsockets.py:VNICCallbackProtocol",S+"network/packet/PacketType.py:Deserializer"])
p("Float fields","A FLOAT64 field carries every number it accepts unchanged. A FLOAT32 field carries the single precision number nearest to it (of two equally near ones the even one), so the order of numbers is kept, the error is at most 2^-150 or 2^-24 of the number, numbers that singles hold arrive unchanged, and a number that was received can be passed on without a further change.",
  "all doubles, all packets with float fields in any place (lists, structs, nested packets)","2^64 numbers, and rounding at the boundaries of exponents",
  [S+"network/packet/fieldtypes/FloatFieldType.py:FloatFieldType",S+"network/packet/fieldtypes/__init__.py:FLOAT32",S+"network/packet/fieldtypes/attributes/scalar_validators.py:Bits",S+"network/packet/encoders/PlaygroundStandardPacketEncoder.py:FloatEncoder"])
p("A received packet is valid","Whatever bytes arrive, in whatever pieces: a packet that Deserialize or nextPackets returns is an instance of the class it was asked of, every value in it, through all structs, lists and packets, is one its field accepts, and it is nested no deeper than allowed. It can be sent on exactly if no required field is missing, and arrives unchanged then unless a string in it is not ASCII or a nested packet's length is in the way (C01).",
  "all byte strings, all splittings, all packet definitions, all histories of a deserializer","adversarial bytes: no list of samples covers the decoders",
  [S+"network/packet/PacketType.py:Deserialize",S+"network/packet/PacketType.py:Deserializer",S+"network/packet/encoders/PlaygroundStandardPacketEncoder.py:PacketFieldsEncoder",S+"network/packet/encoders/PlaygroundStandardPacketEncoder.py:ListEncoder",S+"network/packet/encoders/PlaygroundStandardPacketEncoder.py:PacketEncoder",S+"network/packet/fieldtypes/PacketFieldType.py:setData"])
p("The addresses an application sees","get_extra_info('peername') and ('sockname') of the transport an application gets name the two ends of its connection, through any number of protocol layers: the client sees the address and port it connected to and its own VNIC's address; the server sees the port it listens on; and the two applications of one connection see the same two addresses, the other way round. Later connections do not change what a transport says.",
  "all histories of processes, VNICs and switch; any number of layers; any other transports in the process","needs every interleaving of announcements and callback connections, and sharing of dictionaries between transports",
  [S+"network/common/Protocol.py:StackingTransport",S+"network/protocols/vsockets.py:setPlaygroundConnectionInfo",S+"network/protocols/vsockets.py:sendConnectionSpawned",VN+"connect.py:CallbackService"])
p("Changing one packet does not change another","Each list field of each packet is a list of its own: nothing done to one packet changes what another packet holds, and an assignment p.l = q.l copies the elements, so that later changes of either are not seen by the other. A new packet holds nothing of the packets made before. Assigning a list to itself changes nothing, and an assignment that is refused changes nothing.",
  "all histories of creating packets, structs and lists and assigning, appending, popping and setting items; any nesting of structs and lists; any packets","aliasing depends on the whole history of assignments; tests look at one packet at a time",
  [S+"network/packet/fieldtypes/ListFieldType.py:ListFieldType",S+"network/packet/fieldtypes/ComplexFieldType.py:ComplexFieldType",S+"network/packet/fieldtypes/PacketFields.py:PacketFields",S+"network/packet/fieldtypes/PacketFieldType.py:setData"])
p("The command line tool does what it is asked and reports the network","A call of pnetworking that is typed in one of its ways is carried out, any other ends with exit status 2 and changes nothing. After any calls, a new process reads the network that the calls were meant to make; status shows every device of it, with its state, its process, its address or location, its connection and its routes; a command that fails says so and has an exit status other than 0.",
  "all sequences of calls with any arguments (names in lower case), any states and files of the processes of the devices","the output and the exit status depend on the whole history of calls and on the files that other processes leave; tests run single commands on fresh configurations",
  [PN+"pnetworking.py:PnetworkingInterface",PN+"StatusOutputProcessor.py:DeviceStatusOutputProcessor",PN+"StatusOutputProcessor.py:VnicDeviceStatusOutputProcessor",PN+"PNMSDevice.py:getPid"])
p("Equality of packets","Two packets are equal (==) exactly if they are of the same class and have the same contents: the same fields are set, numbers have the same value, strings and buffers the same characters and bytes, lists the same elements in the same order, and so in the packets inside of them. A packet is equal to itself and to what arrives when it is sent; equal packets have the same bytes.",
  "all packets of all definitions, with any nesting, lists and floats (NaN, infinities, both zeros)","equality recurses through nested packets and lists, and floats have special values; unit tests compare a few packets, mostly with == itself",
  [S+"network/packet/fieldtypes/PacketFields.py:__eq__",S+"network/packet/fieldtypes/ListFieldType.py:__eq__"])
p("The order of fields on the wire","A receiver gets the same packet in whatever order a sender wrote the fields. If a field comes more than once, it has the value that came last; a field that does not come is unset.",
  "all definitions, all values, all orders and repetitions of fields in the bytes","the orders of the fields and the numbers of repetitions are unbounded, and the only sender the unit tests have writes each field once in one order",
  [S+"network/packet/encoders/PlaygroundStandardPacketEncoder.py:PacketFieldsEncoder.decodeIterator",S+"network/packet/encoders/PlaygroundStandardPacketEncoder.py:ListEncoder.decodeIterator",S+"network/packet/fieldtypes/ComplexFieldType.py:initializeData"])
p("A management query returns its own answer once it has arrived","A call of query() returns only a result and error that came in a response with its own id; and when the response to a call has arrived, the call returns it, whatever other calls wait at the same time.",
  "all histories of calls, chunks of data, wake-ups, cancellations and losses of the connection, in every interleaving of the event loop","the number of calls at a time, their interleavings with the tasks of the condition and the cuts of the stream are unbounded; unit tests make one call at a time",
  [S+"network/protocols/spmp.py:SPMPClientProtocol.query",S+"network/protocols/spmp.py:SPMPClientProtocol.data_received",S+"asyncio_lib/SimpleCondition.py:SimpleCondition"])
p("Tab completion offers exactly what can follow","In the shell, the completions of a text are exactly the command lines (names of commands and of their subcommands) that begin with it and have as many names, each once, then none; in the arguments of a command, exactly the files that a path after f:// means; what is offered begins with what was typed, and can be entered.",
  "all histories of commands made, configured and registered, all texts, all contents of the file system, all numbers asked by readline","trees of subcommands, texts and directories are unbounded",
  [S+"common/io/ui/CLIShell.py:completeKeys",S+"common/io/ui/CLIShell.py:CLICommand.complete",S+"common/io/ui/CLIShell.py:CLIShell.complete",S+"common/io/ui/CLIShell.py:FileArgCompleter"])
p("The terminal gives the shell one line after the other","The protocol of a terminal is told that it is connected, then every line that was typed, once and in order, then that the connection is lost; the user is asked for the next line when, and only when, the commands of all lines before are complete; after it is closed, never again.",
  "all schedules of the two threads (reader and event loop), all lines, all results of commands, all times at which futures are done, the terminal is closed and the event loop starts or stops","the interleavings of two threads and the histories are unbounded; tests see one schedule",
  [S+"common/io/ui/CLIShell.py:AdvancedStdio.loop",S+"common/io/ui/CLIShell.py:AdvancedStdio.getNextInput",S+"common/io/ui/CLIShell.py:AdvancedStdio.shouldQuit",S+"common/io/ui/CLIShell.py:AdvancedStdio.lose_connection"])
p("Queries to a management server: each is carried out once, in order, and returns its own answer","Calls of query() on one connection to an SPMP server, made at any times: the server calls the functions in the order of the calls, each once; a call returns the result or the error of its own request, only after that request (and all before it) was carried out; and whatever the order in which bytes and tasks are handled, all calls have returned when nothing is under way, which happens after finitely many steps.",
  "all sequences of calls, all functions behind the API, all interleavings of calls, tasks and arriving bytes, all ways to cut the bytes into pieces in both directions","the interleavings of two programs and a network are unbounded",
  [S+"network/protocols/spmp.py:SPMPClientProtocol.query",S+"network/protocols/spmp.py:SPMPServerProtocol.data_received",S+"asyncio_lib/SimpleCondition.py:SimpleCondition"])
p("Dumping shows what arrives and disturbs nothing","A program that starts to dump on a control connection of a VNIC gets a copy of every packet that passes the VNIC from then until it stops or disconnects: once, in order, unchanged, whomever the packet is for; nobody else notices; and it can send raw packets itself.",
  "all histories of a VNIC: all control connections, sockets, packets, times at which dumping starts and stops","the histories and the number of connections and packets are unbounded",
  [S+"network/devices/vnic/VNIC.py:VNIC.demux",S+"network/devices/vnic/VNIC.py:VNIC.startDump",S+"network/devices/vnic/VNIC.py:VNIC.stopDump",S+"network/protocols/vsockets.py:VNICDumpProtocol",S+"network/protocols/vsockets.py:VNICSocketControlProtocol"])
p("A control connection carries commands and raw packets","Commands and raw packets that a client writes on one control connection of a VNIC, cut into chunks in any way and with any other events in between, are carried out by the VNIC exactly once and in order; nothing is lost, added or reordered.",
  "all sequences of commands and raw packets that fit their fields, all cuts into chunks, all other events at the VNIC in between","sequences, sizes and cuts are unbounded; the failing sizes are about one in 256",
  [S+"network/protocols/vsockets.py:VNICSocketControlProtocol.data_received",S+"network/protocols/vsockets.py:VNICDumpProtocol.write",S+"network/packet/PacketType.py:Deserializer",FRM+":PacketFramingStreamAdapter"])
p("A client library and a VNIC understand each other","A program that calls listen and connect on a VNIC through the client library gets, for each call, the answer of the VNIC to that call: listen completes with the port that was asked for or fails if the VNIC refused it; connect completes exactly when the VNIC announces the connection, with its local port, and the connection goes to the destination asked for. This over the bytes of one control connection, however they are cut and delayed in both directions, whatever other calls and other clients do.",
  "all sequences of calls, closes and other events at the VNIC, all cuts and delays of the bytes in both directions","histories, cuts and delays in both directions are unbounded",
  [S+"network/protocols/vsockets.py:VNICSocketControlClientProtocol",S+"network/protocols/vsockets.py:VNICSocketControlProtocol",S+"network/protocols/packets/vsocket_packets.py",S+"network/packet/PacketType.py:Deserializer"])
p("A Deferred calls every function once with the result","The first callback, errback or cancellation of a Deferred decides; later ones raise. Every function added with addCallback, before or after the result, is called exactly once with the result, in the order in which they were added, when the loop gets to it; with addErrback the same for the exception; no function of the other kind is called, and none after a cancellation.",
  "all sequences of addCallback, addErrback, callback, errback, cancellation and loop steps","all interleavings of additions, results and loop steps",
  [S+"common/io/ui/AsyncIODeferred.py:Deferred"])
p("A read-only view of a configuration section changes nothing","Through a read-only view of a section of the network configuration nothing in the section and nothing in the file changes: item assignment and save raise, and all reads give what the section holds. Through a writable view an assignment can be read back through every view, and is in the file after save.",
  "all sections and all histories of operations through views of both kinds","histories and keys are unbounded",
  [PN+"NetworkManager.py:ConfigSectionAdapter",S+"common/datastructures/DelegateAdapter.py:DelegateAdapter"])
p("A field type is encoded as what it was derived from","The encoder of a field type is the one registered for it, or else for the nearest type it is derived from; so classes that a user derives from the library's field types, structs and packets are sent as these, a list of a field type is sent as a list, and there is no encoder exactly if none is registered for any of these types. A registered encoder is used for its type at once and changes nothing for types not derived from it.",
  "all class hierarchies and all tables of registered encoders","class hierarchies are unbounded",
  [S+"network/packet/encoders/PlaygroundStandardPacketEncoder.py:PlaygroundStandardPacketEncoder.GetTypeEncoder",S+"network/packet/encoders/PlaygroundStandardPacketEncoder.py:PlaygroundStandardPacketEncoder.RegisterTypeEncoder",S+"network/packet/encoders/PlaygroundStandardPacketEncoder.py:iterateClassAncestors"])
p("Serializable objects round trip","For every object of a Serializable class that __serialize__ accepts, Deserialize of the class gives back an equal object, whatever follows the bytes; on a strict part of the bytes it does not return.",
  "all field lists, all values, all continuations and all strict prefixes","field lists and values are unbounded",
  [S+"network/packet/PacketType.py:Serializable",S+"network/packet/encoders/PlaygroundStandardPacketEncoder.py:PacketFieldsEncoder"])
p("A seekable stream is a file","A MinimumCopyingStreamIO made with seekable=True behaves as a file to which update appends: seek, tell, available, peek and read at any position give what a file with these contents gives, and a closed stream raises.",
  "all initial buffers and all sequences of update, read, peek, seek, tell, available and close","positions, sizes and the division into buffers are unbounded",
  [IO+":MinimumCopyingStreamIO"])
p("The sockets of a server","server.sockets of a Playground server lists a socket with the server's own address first, and one for each of the server's current connections, each once and no other; each has the address of its end of the connection as its name.",
  "all histories of calls, announcements, callback connections, losses and closes","histories and the numbers of connections are unbounded",
  [VN+"connect.py:PlaygroundServer",VN+"connect.py:CallbackService.getConnections"])
p("A device sees and ends its own process","A device is taken to run exactly when its run files are there and the process in its pid file is alive; waiting for its start ends when it is seen to run, after the timeout at the latest; shutting down sends SIGTERM to that process only, succeeds exactly when it is dead within the timeout, and leaves no run file.",
  "all outputs of ps, contents of the pid file, behaviours of other processes and timeouts","the behaviour of other processes over time is arbitrary",
  [S+"common/os.py:isPidAlive",PN+"PNMSDevice.py:PNMSDevice._shutdown",PN+"PNMSDevice.py:PNMSDevice._waitUntilRunning",PN+"PNMSDevice.py:PNMSDevice._running"])
p("Deserialize comes to an end","Deserialize returns the packet or raises for every byte string.",
  "all classes and all byte strings","byte strings are unbounded, and that a loop does not end cannot be tested",
  [S+"network/packet/PacketType.py:PacketType.Deserialize",S+"network/packet/encoders/PlaygroundStandardPacketEncoder.py:PlaygroundStandardPacketEncoder.decode",S+"common/ReturnOrientedGenerator.py:ReturnOrientedGenerator"])
p("Classes of devices","A class of devices registers its type name, which no other class has; a device may be connected to exactly the devices of the classes in its CanConnectTo, and may have routes exactly when its class has CanRoute.",
  "all sequences of class definitions, also failing ones, and all pairs of classes","hierarchies of classes are unbounded",
  [PN+"PNMSDevice.py:PNMSDeviceLoader",PN+"NetworkManager.py:ConnectionDeviceAPI.ConnectionPermitted",PN+"NetworkManager.py:RoutesDeviceAPI"])
p("Adapters are transparent","An object with a DelegateAdapter around it behaves as the object: what is assigned to an attribute that the adapter does not list is read back through it and through the object.",
  "all chains of adapters and all histories of assignments at any level","chains and histories are unbounded",
  [S+"common/datastructures/DelegateAdapter.py:DelegateAdapter"])
p("Keys of connections","PortKeys are equal exactly when their four parts are, to each other and to tuples, and equal ones have the same hash; inverseKey is its own inverse; comparing a key with anything gives a truth value.",
  "all keys and all values compared with them","addresses are unbounded",
  [S+"network/common/PortKey.py:PortKey"])
p("Constants","A CustomConstant converts to the values it was made with, numbers stand in for each other and for a truth value, and every constant has a truth value and a text that tells its number.",
  "all constants","values are unbounded",
  [S+"common/CustomConstant.py:CustomConstant",PN+"PNMSDevice.py:PNMSDevice.STATUS_ENABLED"])
p("Chains of certificates","ValidateCertChainSigs says True exactly for the lists in which every certificate is signed with the key of the next one, and False for all others; getCertSubject and getCertIssuer tell the names in a certificate.",
  "all lists of certificates, with keys of all kinds","chains are unbounded and signatures arbitrary",
  [S+"common/CipherUtil.py:ValidateCertChainSigs",S+"common/CipherUtil.py:getCertSubject",S+"common/CipherUtil.py:getCertIssuer"])
p("RSA signatures as a MAC","What RSA_SIGNATURE_MAC signs with a private key it verifies with the private and the public key; EncryptThenRsaSign decrypts what it has encrypted with RSA keys of any size, and gives None for anything else; the public key cannot sign.",
  "all messages, keys and key sizes","messages and keys are unbounded",
  [S+"common/CipherUtil.py:RSA_SIGNATURE_MAC",S+"common/CipherUtil.py:EncryptThenRsaSign",S+"common/CipherUtil.py:DefaultSign"])
p("Log records with special data","Every handler writes the message of a record with special data with the data in their fields, leaves fields it does not know, and fills these from the arguments of the record.",
  "all messages, special data, arguments and numbers of handlers","messages, data and handlers are unbounded",
  [S+"common/logging.py:PlaygroundLoggingFormatter",S+"common/logging.py:PartialConverter"])
p("Lines and raw data","A subclass of LineReceiver that changes between lines and raw data, and gives back with setLineMode what belongs to the lines, sees the same however the stream is divided; one for lines with bodies gets exactly the lines and bodies its peer has sent.",
  "all subclasses whose raw handler goes by the bytes, delimiters, maximal lengths, streams and divisions","streams and divisions are unbounded",
  [S+"common/io/ui/CLIShell.py:LineReceiver.setRawMode",S+"common/io/ui/CLIShell.py:LineReceiver.setLineMode",S+"common/io/ui/CLIShell.py:LineReceiver.data_received"])
p("Promiscuous level over control connections","A client that sets the promiscuous level of a VNIC, or asks for it, gets back the level that the VNIC has just after its request was handled, min(level, 4) if it set one, and closes its connection, however many others do the same, however the bytes are cut and interleaved and whatever the link to the switch does; and the level changes in no other way.",
  "all levels, numbers of clients, interleavings, divisions of the bytes and histories of the link","histories and divisions are unbounded",
  [S+"network/protocols/vsockets.py:VNICPromiscuousControl",S+"network/protocols/vsockets.py:VNICSocketControlProtocol.data_received",S+"network/protocols/packets/vsocket_packets.py:VNICPromiscuousLevelPacket"])
p("What help tells","When help returns, it has printed a line for each way of using each registered command, its subcommands included, and no other lines; every way it prints works, and every line that runs a callback was told; help of one command adds the help text of what each way runs; help raises exactly if a command has subcommands nested as deep as the recursion limit (a command that is its own subcommand has), or, at the terminal, if the command it is asked about has no way of being used.",
  "all histories of commands being made, configured, registered and used, all usage and help texts and recursion limits","histories, texts and the nesting of commands are unbounded",
  [S+"common/io/ui/CLIShell.py:CLICommand.usageHelp",S+"common/io/ui/CLIShell.py:CLICommand.help",S+"common/io/ui/CLIShell.py:CLIShell.help",S+"common/io/ui/CLIShell.py:AdvancedStdio.write"])
p("Log handlers of an application","A handler writes exactly the messages that are for what it was last set to with enableHandler (level, modules, tags) and that have the level of the last enableLogging, each once, whatever other handlers were enabled, disabled and set in between; a handler that is disabled writes nothing, and enabled again it is as new.",
  "all histories of calls, handlers, levels, modules, tags, logger names and messages","histories are unbounded, and what a handler writes depends on filters left by earlier calls",
  [S+"common/logging.py:PlaygroundLoggingConfiguration.enableHandler",S+"common/logging.py:PlaygroundLoggingConfiguration.disableHandler",S+"common/logging.py:PlaygroundLoggingConfiguration.clearAllHandlers",S+"common/logging.py:PlaygroundLoggingFilter"])
p("Attributes of fields","A field has the attributes that it is given, with the values given, and those that follow from them (bases, and bases of bases), each with the value of the first one given that it follows from, converted by that one; making a field ends even if attributes follow from each other. A copy of a field has the same attributes and takes the same data; a copy with new attributes has these, and what follows from them.",
  "all hierarchies of attributes, also circular ones, all conversions and validators, all attributes given and all values","hierarchies of attributes are unbounded and may be circular; the constructor is a worklist loop whose outcome depends on the order",
  [S+"network/packet/fieldtypes/PacketFieldType.py:PacketFieldType.__init__",S+"network/packet/fieldtypes/PacketFieldType.py:PacketFieldType.__call__",S+"network/packet/fieldtypes/PacketFieldType.py:PacketFieldType.setData",S+"network/packet/fieldtypes/attributes/FieldTypeAttribute.py:FieldTypeAttribute",S+"network/packet/fieldtypes/attributes/scalar_validators.py:BitsValidator"])

with open(os.path.join(os.path.dirname(__file__), "..", "properties.jsonl"), "w") as f:
    for x in P: f.write(json.dumps(x)+"\n")
print(len(P))
