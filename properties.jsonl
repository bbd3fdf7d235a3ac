{"id": "C01", "title": "UUID text round trip", "statement": "Parsing the text a UUID prints as gives that UUID back, hyphens and letter case do not matter to Parse, and Parse accepts exactly the hexadecimal texts that denote 2 or 16 bytes.", "quantifier": "every UUID value of 2 or 16 bytes; every text", "why_tests_cant": "2^128 values and unboundedly many texts; a test samples a handful", "anchors": ["uuid.go: Parse, UUID.String, Reverse, UUID.Equal, lenErr"]}
{"id": "C02", "title": "Byte-order reversal is an involution", "statement": "Reverse and SwapBuf return the bytes of their argument in exactly the opposite order, agree with each other on every input, and applying either twice gives the argument back.", "quantifier": "every byte slice of every length, empty included", "why_tests_cant": "the index arithmetic must be right for every length, odd and even", "anchors": ["uuid.go: Reverse", "sliceops/swap.go: SwapBuf"]}
{"id": "C03", "title": "Advertising packets never exceed the EIR limit and a field that does not fit leaves the packet untouched", "statement": "However fields are appended, the packet stays at most 31 bytes; every append either adds the whole field or returns ErrNotFit and leaves the bytes unchanged (all-or-nothing).", "quantifier": "every sequence of appended fields, including manufacturer data, service data, names, UUID lists and iBeacons", "why_tests_cant": "sequences of appends are unbounded and the boundary is reached by infinitely many of them", "anchors": ["linux/adv/packet.go: Packet.append, Append, Field constructors, ServiceData16", "linux/adv/const.go: MaxEIRPacketLength"]}
{"id": "C04", "title": "What is advertised is what a scanner decodes", "statement": "Encoding a list of advertising fields with the packet builder and decoding the bytes with the parser returns the same flags, names, service UUIDs, service data and manufacturer data.", "quantifier": "every list of well-formed fields that fits", "why_tests_cant": "needs every combination of field kinds, orders and sizes", "anchors": ["linux/adv/packet.go: Packet.append, Field constructors", "parser/parser.go: Parse"]}
{"id": "C05", "title": "Decoding an advertisement never crashes the scanner", "statement": "For every byte string received over the air the parser returns a map or an error; it never reads outside the packet and never panics.", "quantifier": "every byte string of every length", "why_tests_cant": "adversarial over-the-air input: the space is all byte strings", "anchors": ["parser/parser.go: Parse, getArray, decode table", "linux/adv/packet.go: NewRawPacket"]}
{"id": "C06", "title": "Decoded advertisement content comes from well-framed records", "statement": "The parser accepts a packet only if its length/type/value records tile it; a zero or overlong length is reported as an error; every reported value is the payload of a record of the matching type, and nothing is lost or reordered.", "quantifier": "every byte string", "why_tests_cant": "soundness and completeness over all byte strings", "anchors": ["parser/parser.go: Parse"]}
{"id": "C07", "title": "iBeacon layout", "statement": "An iBeacon built from (uuid, major, minor, power) has Apple's company id, beacon type 0x02 0x15, the 16 UUID bytes most significant first, big-endian major and minor and the power byte, and different parameters give different packets.", "quantifier": "every 16-byte UUID, every major, minor and power", "why_tests_cant": "2^168 parameter tuples", "anchors": ["linux/adv/packet.go: IBeacon, IBeaconData"]}
{"id": "C08", "title": "Attribute handles are consecutive, unique and grouped", "statement": "Building the attribute table gives consecutive handles from the base; every service declaration covers exactly its own attributes and service ranges do not overlap; every characteristic declaration names the handle of its own value attribute, which directly follows it.", "quantifier": "every list of services with any characteristics and descriptors whose attributes fit in the handle space", "why_tests_cant": "structure must hold for every service tree", "anchors": ["linux/att/db.go: NewDB, genSvcAttr, genCharAttr, genDescAttr"]}
{"id": "C09", "title": "Handle lookup is exact", "statement": "Looking a handle up finds the attribute with that handle if there is one and nothing otherwise; a handle range yields exactly the attributes inside the range, in order; a request for a range that starts at 0 or is reversed is refused with Invalid Handle.", "quantifier": "every table, every handle and every range, including 0, 0xFFFF, reversed and out-of-range ones", "why_tests_cant": "index arithmetic at every boundary of every table", "anchors": ["linux/att/db.go: DB.idx, DB.at, DB.subrange"]}
{"id": "C10", "title": "A response never exceeds the negotiated MTU", "statement": "Every PDU the ATT server sends, response or error, is at most the MTU currently in force.", "quantifier": "every attribute table, every request PDU, every MTU of at least 23 and every application handler behaviour", "why_tests_cant": "value sizes, MTU and table contents interact; the off-by-one space is infinite", "anchors": ["linux/att/server.go: handleRequest and all handle* functions", "handler.go: ResponseWriter"]}
{"id": "C11", "title": "Every request gets exactly one answer of the right kind", "statement": "For each request opcode the server sends exactly one PDU: the matching response opcode or an Error Response that names the request opcode; commands and confirmations get none.", "quantifier": "every request PDU and server state", "why_tests_cant": "all PDUs and states", "anchors": ["linux/att/server.go: handleRequest, newErrorResponse, handleWriteCommand"]}
{"id": "C12", "title": "No PDU from a peer crashes the server", "statement": "Whatever bytes a connected peer sends, the ATT server answers, ignores or rejects them; it does not panic.", "quantifier": "every PDU, every attribute table, every server state", "why_tests_cant": "adversarial input over every table", "anchors": ["linux/att/server.go: handleRequest, handlePrepareWriteRequest, handleExecuteWriteRequest, handleReadRequest, handleReadByGroupRequest"]}
{"id": "C13", "title": "Find Information reports only real attributes of the range, of one format, as many as fit", "statement": "A Find Information Response lists, in increasing order and without gaps, the (handle, type) pairs of a prefix of the attributes in the range, all with UUIDs of the announced size; an empty range gives Attribute Not Found.", "quantifier": "every table, range and MTU", "why_tests_cant": "quantifies over tables and MTUs", "anchors": ["linux/att/server.go: handleFindInformationRequest"]}
{"id": "C14", "title": "Read By Type reports only attributes of the asked type", "statement": "Each entry of a Read By Type Response is an attribute in the range with the asked type and its value; entries are in handle order, have equal length and the first matching attribute is always first.", "quantifier": "every table, range, type, MTU and handler", "why_tests_cant": "quantifies over tables and handlers", "anchors": ["linux/att/server.go: handleReadByTypeRequest"]}
{"id": "C15", "title": "Service discovery finds every service", "statement": "A client discovering primary services against this server obtains every service, once, in order, with its start and end handle and UUID, whatever the MTU.", "quantifier": "every attribute table built from services with 2- or 16-byte UUIDs, every MTU of at least 23", "why_tests_cant": "a loop of requests whose number depends on table and MTU", "anchors": ["linux/gatt/client.go: DiscoverServices", "linux/att/server.go: handleReadByGroupRequest", "linux/att/client.go: ReadByGroupType"]}
{"id": "C16", "title": "Error responses identify their request", "statement": "An Error Response is the five bytes 01, request opcode, handle little-endian, error code, and a client that receives it reports that error code.", "quantifier": "every opcode, handle and code", "why_tests_cant": "all PDUs", "anchors": ["linux/att/server.go: newErrorResponse", "linux/att/client.go: response checks", "error.go: ATTError"]}
{"id": "C17", "title": "MTU exchange", "statement": "An Exchange MTU Request with a proper length and an MTU of at least 23 is answered with the server MTU and changes the MTU used for this connection only; a bad one is refused and changes nothing; the client then uses the smaller of the two sides' values.", "quantifier": "every request PDU, every client-side value", "why_tests_cant": "the in-force MTU governs all later bounds", "anchors": ["linux/att/server.go: handleExchangeMTURequest", "linux/att/client.go: ExchangeMTU", "linux/gatt/client.go: ExchangeMTU"]}
{"id": "C18", "title": "A write reaches exactly its attribute with exactly its bytes", "statement": "A Write Request or Command to a handle calls the write handler of that attribute and no other, with exactly the value bytes; attributes without a write handler refuse with an error and nothing is called; unknown handles are refused.", "quantifier": "every table, handle and value", "why_tests_cant": "all PDUs and tables", "anchors": ["linux/att/server.go: handleWriteRequest, handleWriteCommand, handleATT", "handler.go: Request"]}
{"id": "C19", "title": "Queued writes are delivered whole or not at all", "statement": "Prepared fragments are delivered to the attribute they were prepared for, in order and concatenated, on Execute; on Cancel nothing is delivered and the queue is empty.", "quantifier": "every sequence of Prepare/Execute/Cancel requests", "why_tests_cant": "histories of arbitrary length", "anchors": ["linux/att/server.go: handlePrepareWriteRequest, handleExecuteWriteRequest, conn.prepareWriteRequestAttr"]}
{"id": "C20", "title": "Client Characteristic Configuration is per connection and drives notifications", "statement": "Reading a CCCD returns the last accepted value written on that connection and 0 before that; a notifier exists exactly while the corresponding bit is set; other characteristics are not affected; closing the connection closes every notifier.", "quantifier": "every history of CCCD writes", "why_tests_cant": "histories of arbitrary length", "anchors": ["linux/att/db.go: newCCCD", "linux/att/server.go: conn, Loop cleanup"]}
{"id": "C21", "title": "Notifications and indications carry the value truncated to MTU-3", "statement": "A notification or indication PDU is opcode, value handle little-endian and the longest prefix of the data that fits the MTU.", "quantifier": "every data, handle and MTU", "why_tests_cant": "all sizes", "anchors": ["linux/att/server.go: notify, indicate"]}
{"id": "C22", "title": "A client call returns the response to its own request", "statement": "Requests are sent one at a time and the reply given to a caller is one the server sent in answer to that request.", "quantifier": "every interleaving of server replies, timeouts and client calls", "why_tests_cant": "schedules", "anchors": ["linux/att/client.go: sendReq, Loop"]}
{"id": "C23", "title": "The client never crashes on a server's PDU", "statement": "Whatever bytes a server sends, client calls return a value or an error and never panic.", "quantifier": "every response PDU to every call", "why_tests_cant": "adversarial input", "anchors": ["linux/att/client.go: all request functions, Loop", "linux/gatt/client.go: Discover*"]}
{"id": "C24", "title": "A client request encodes its arguments", "statement": "The bytes a client call puts on the air decode to exactly the arguments of the call.", "quantifier": "every handle, offset, UUID and value", "why_tests_cant": "all arguments", "anchors": ["linux/att/client.go: Read, ReadBlob, Write, PrepareWrite, ExecuteWrite, SignedWrite, FindInformation, ReadByType", "linux/att/att_gen.go"]}
{"id": "C25", "title": "ReadLong returns the whole value", "statement": "Reading a long characteristic returns the complete attribute value, for every length and MTU.", "quantifier": "every value length and MTU, static and handler-backed values", "why_tests_cant": "the number of blobs depends on both", "anchors": ["linux/gatt/client.go: ReadLongCharacteristic", "linux/att/server.go: handleReadRequest, handleReadBlobRequest"]}
{"id": "C26", "title": "Subscription state matches the peer's CCCD", "statement": "After any history of Subscribe/Unsubscribe/ClearSubscriptions calls, the CCCD value last written equals the set of active subscriptions.", "quantifier": "every history, including failing writes", "why_tests_cant": "histories of arbitrary length", "anchors": ["linux/gatt/client.go: Subscribe, Unsubscribe, setHandlers, ClearSubscriptions"]}
{"id": "C27", "title": "Notification dispatch", "statement": "A notification's data goes to the handler subscribed for its value handle and to no other; unknown handles are dropped; each indication is confirmed exactly once.", "quantifier": "every PDU and subscription state", "why_tests_cant": "all PDUs and histories", "anchors": ["linux/gatt/client.go: HandleNotification", "linux/att/client.go: Loop, asyncReqLoop"]}
{"id": "C28", "title": "H4 reassembly does not depend on chunking", "statement": "However the serial byte stream is cut into reads that follow each other within the assembler's 500 ms packet time-out, the packets delivered are exactly the HCI packets of the stream, in order.", "quantifier": "every stream of well-formed packets and every way to cut it into reads", "why_tests_cant": "exponentially many cuts of unboundedly long streams", "anchors": ["linux/hci/h4/frame.go: frame.Assemble, waitStart, frameLen"]}
{"id": "C29", "title": "L2CAP fragmentation and recombination are inverse", "statement": "Sending a PDU over ACL produces fragments that each fit the controller buffer, the first marked start and the others continuation, and recombining them gives the PDU back.", "quantifier": "every PDU and every controller buffer size", "why_tests_cant": "all sizes", "anchors": ["linux/hci/conn.go: Write, writePDU, recombine, Read", "linux/hci/buffer.go"]}
{"id": "C30", "title": "Controller buffers are never over-committed and never lost", "statement": "The number of ACL packets outstanding at the controller never exceeds the number it announced; completed-packet events and disconnections give the buffers back exactly once.", "quantifier": "every history of writes, completions and disconnections on any number of connections", "why_tests_cant": "interleavings of arbitrary length", "anchors": ["linux/hci/buffer.go: Pool, Client", "linux/hci/hci.go: handleNumberOfCompletedPackets, cleanupConnectionHandle", "linux/hci/conn.go: writePDU"]}
{"id": "C31", "title": "HCI command/response matching", "statement": "At most one command per opcode is outstanding, a command's caller gets the parameters of the Command Complete/Status carrying its opcode, and the host never has more commands outstanding than the controller allowed.", "quantifier": "every interleaving of sends and controller events", "why_tests_cant": "schedules", "anchors": ["linux/hci/hci.go: send, Send, handleCommandComplete, handleCommandStatus, setAllowedCommands"]}
{"id": "C32", "title": "Malformed L2CAP or HCI data from the radio does not crash the host", "statement": "Truncated or inconsistent ACL packets, L2CAP PDUs, signalling commands and credit frames are reported or dropped without panic.", "quantifier": "every byte string", "why_tests_cant": "adversarial input", "anchors": ["linux/hci/conn.go: recombine, packet accessors", "linux/hci/signal.go: handleSignal", "linux/hci/coc.go: recieve"]}
{"id": "C33", "title": "Scan responses are paired with their advertisement", "statement": "A scan response is attached to the most recently remembered advertisement of the same address and to no other; the application sees every advertisement.", "quantifier": "every sequence of advertising reports", "why_tests_cant": "histories beyond the ring size", "anchors": ["linux/hci/hci.go: handleLEAdvertisingReport, makeAdvError", "linux/hci/adv.go"]}
{"id": "C34", "title": "Advertising report fields are read in bounds", "statement": "Each field accessor of an advertising report returns the field's bytes or an error, never bytes of another report and never a panic.", "quantifier": "every event payload and every report index", "why_tests_cant": "all byte strings", "anchors": ["linux/hci/evt/evt_werr.go"]}
{"id": "C35", "title": "Connection and scan parameter validation is exact", "statement": "Parameters are accepted exactly when they are within the ranges of the Bluetooth specification and mutually consistent.", "quantifier": "every parameter tuple", "why_tests_cant": "2^100 tuples", "anchors": ["linux/hci/params.go"]}
{"id": "C36", "title": "Credit-based channels never send without credit", "statement": "The number of frames sent on a channel never exceeds the credits the peer granted; credits never wrap around; a grant that would overflow is refused.", "quantifier": "every history of sends and grants", "why_tests_cant": "histories", "anchors": ["linux/hci/coc.go: cocWriter/Send, IncrementCredits, DecrementCredits"]}
{"id": "C37", "title": "Channel identifiers are unique", "statement": "Two open credit-based channels of a connection never have the same local identifier, and identifiers are in the dynamic range.", "quantifier": "every history of opens", "why_tests_cant": "histories, wrap-around", "anchors": ["linux/hci/coc.go: NextSourceCID"]}
{"id": "C38", "title": "SDUs survive segmentation", "statement": "An SDU written to a credit-based channel is delivered whole by a receiver following the specification, and an SDU sent by a peer following the specification is delivered whole to the application.", "quantifier": "every SDU and MPS", "why_tests_cant": "all sizes", "anchors": ["linux/hci/coc.go: Send, recieve"]}
{"id": "C39", "title": "Signalling messages round trip and are answered", "statement": "Every signalling message decodes to what was encoded; identifiers are never 0; each request in a signalling PDU gets its response or a Command Reject with the same identifier.", "quantifier": "every message, every sequence of identifiers, every packet of several commands", "why_tests_cant": "all messages", "anchors": ["linux/hci/signal.go", "linux/hci/signal_gen.go"]}
{"id": "C40", "title": "Pairing method selection", "statement": "The pairing method chosen is the one the specification's table gives for the two sides' IO capabilities, OOB flags and MITM requirements.", "quantifier": "every pair of pairing feature sets, for legacy and secure connections", "why_tests_cant": "the table must be right for every feature byte", "anchors": ["linux/hci/smp/context.go: determinePairingType", "linux/hci/smp/const.go: ioCapsTableSC, ioCapsTableLegacy", "linux/hci/smp/util.go: isLegacy"]}
{"id": "C41", "title": "Two honest sides derive the same keys and accept each other's checks", "statement": "With the same shared secret, both sides compute the same MacKey and LTK, and each side's confirm and DH-key check is accepted by the other; a check under different inputs is rejected unless the MAC collides.", "quantifier": "every key, nonce and address; every MAC/cipher", "why_tests_cant": "all keys", "anchors": ["linux/hci/smp/crypto.go: smpF4, smpF5, smpF6, smpG2, smpC1, smpS1", "linux/hci/smp/context.go: checkConfirm, calcMacLtk, checkDHKeyCheck"]}
{"id": "C42", "title": "A bond is stored only after a completed authenticated pairing", "statement": "No sequence of messages from a peer makes the host store a key unless the pairing exchange was run and its check passed.", "quantifier": "every sequence of SMP messages", "why_tests_cant": "adversarial histories", "anchors": ["linux/hci/smp/handler.go", "linux/hci/smp/manager.go"]}
{"id": "C43", "title": "Bond store behaves as a map", "statement": "Find after Save returns the same key, EDIV and random for the same address; other addresses are unaffected; after Delete the address is not found; Exists agrees with Find.", "quantifier": "every history of operations", "why_tests_cant": "histories", "anchors": ["linux/hci/bond/manager.go"]}
{"id": "C44", "title": "Profile cache behaves as a map", "statement": "Load after Store returns the stored profile; storing without replace does not overwrite; other keys are unaffected; Clear empties.", "quantifier": "every history of operations", "why_tests_cant": "histories", "anchors": ["cache/cache.go"]}
{"id": "C45", "title": "Advertise by name puts the name and as many services as fit on the air", "statement": "AdvertiseNameAndServices yields advertisement and scan-response data of at most 31 bytes each that announce exactly the fitting UUIDs and the complete name if it fits anywhere.", "quantifier": "every name and UUID list", "why_tests_cant": "all lengths", "anchors": ["linux/hci/gap.go: AdvertiseNameAndServices, SetAdvertisement"]}
{"id": "C46", "title": "Characteristic and descriptor discovery", "statement": "Discovering characteristics of a service against this server returns every characteristic with its declaration, value and end handle; discovering descriptors returns every descriptor.", "quantifier": "every attribute table, every MTU of at least 23", "why_tests_cant": "request loops", "anchors": ["linux/gatt/client.go: DiscoverCharacteristics, DiscoverDescriptors"]}
{"id": "C47", "title": "HCI command encoding", "statement": "Each HCI command serialises to as many bytes as its declared length and its packet header carries opcode and length little-endian; decoding the parameters gives the fields back.", "quantifier": "every command, every field value", "why_tests_cant": "all field values", "anchors": ["linux/hci/cmd/cmd_gen.go", "linux/hci/cmd/cmd.go: marshal", "linux/hci/hci.go: send"]}
{"id": "C48", "title": "Dial addresses the right peer", "statement": "Dialling an address puts the address's bytes, least significant first, in the create-connection command, with the address type matching the kind of address.", "quantifier": "every 6-byte address", "why_tests_cant": "2^48 addresses", "anchors": ["linux/hci/gap.go: Dial", "addr.go", "sliceops/swap.go"]}
{"id": "C49", "title": "Each notifying characteristic has exactly one CCCD", "statement": "However services are added to the GATT server, each characteristic that can notify or indicate has exactly one Client Characteristic Configuration descriptor in the attribute table, and characteristics that cannot have none.", "quantifier": "all sequences of AddService, SetServices and RemoveAllServices calls, all services", "why_tests_cant": "depends on the history of calls that rebuild the table; tests add one service", "anchors": ["linux/gatt/server.go: AddService, SetServices, RemoveAllServices", "linux/att/db.go: genCharAttr, newCCCD"]}
{"id": "C50", "title": "DiscoverProfile is all or error", "statement": "A call to DiscoverProfile either returns an error or leaves a profile that contains every service, characteristic and descriptor of the server exactly once, whatever calls were made before it.", "quantifier": "every attribute table of the peer, every history of earlier successful and failed discovery calls, forced and not", "why_tests_cant": "the outcome depends on the history of earlier calls and on where an earlier one failed", "anchors": ["linux/gatt/client.go: DiscoverProfile, DiscoverServices, DiscoverCharacteristics, DiscoverDescriptors"]}
{"id": "C51", "title": "HCI events and ACL data reach exactly the connection they name", "statement": "A packet from the controller affects only the connections whose handles it names: ACL data is queued unchanged and in order for the connection with its handle, returned buffers are counted for the connections listed in the event, a disconnection closes the connection it names, and everything else about every other connection is unchanged.", "quantifier": "every reachable state of the connection table, every packet", "why_tests_cant": "depends on the history of connections and on every byte pattern of the packet", "anchors": ["linux/hci/hci.go: handlePkt, handleACL, handleEvt, handleLEConnectionComplete, handleDisconnectionComplete, handleEncryptionChange, handleNumberOfCompletedPackets", "linux/hci/conn.go: packet.handle"]}
{"id": "C52", "title": "Encryption state follows the controller's events", "statement": "While a connection exists, its encryption state is what the last encryption event of the controller for its handle said, and unencrypted before the first.", "quantifier": "all histories of packets, calls to Close and shutdown", "why_tests_cant": "depends on the order of events for several connections", "anchors": ["linux/hci/hci.go: Init, handleEncryptionChange, handleEncryptionKeyRefreshComplete", "linux/hci/conn.go: handleEncryptionChanged, handleEncryptionKeyRefreshComplete"]}
{"id": "C53", "title": "A connection is announced closed exactly once, and when it ends", "statement": "Disconnected() fires at most once, only after the connection ended (the peer or the application closed it, or the HCI shut down), no channel is closed twice, and a closed connection receives nothing more; Close ends the connection it is called on and no other.", "quantifier": "all histories of packets, Close calls, reader failures and shutdown, with every interleaving", "why_tests_cant": "race conditions between Close, events and handle reuse", "anchors": ["linux/hci/hci.go: cleanupConnectionHandle, handleDisconnectionComplete, handleLEConnectionComplete, cleanup", "linux/hci/conn.go: Close, newConn"]}
{"id": "C54", "title": "Pairing messages from the peer cannot crash the program or stop a connection", "statement": "Whatever messages a peer sends on the security channel, in whatever order, before, during and after pairing, the process does not crash and the connection keeps receiving.", "quantifier": "every history of security messages, calls of Pair and timeouts; every message", "why_tests_cant": "adversarial message sequences are unbounded", "anchors": ["linux/hci/smp/manager.go: Handle, waitResult", "linux/hci/smp/handler.go", "linux/hci/smp/context.go"]}
{"id": "C55", "title": "Pair returns nil only when pairing succeeded", "statement": "Pair returns nil only if, after it was called, the peer proved knowledge of the exchanged secret (a correct DHKey check, or in legacy pairing a confirm value made with the temporary key); a failed or timed out Pair returns an error, and Pair can be called again after a failure.", "quantifier": "every history of security messages, calls of Pair and timeouts", "why_tests_cant": "adversarial histories", "anchors": ["linux/hci/smp/manager.go: Pair, waitResult, Handle"]}
{"id": "C56", "title": "Passkey entry reveals at most one guess", "statement": "A peer that does not know the passkey cannot complete passkey pairing except by guessing it: each attempt reveals at most one bit.", "quantifier": "every passkey, all peers", "why_tests_cant": "adversarial strategies", "anchors": ["linux/hci/smp/handler.go: smpOnPairingConfirm, smpOnPairingRandom, handlePassKeyRandom"]}
{"id": "C57", "title": "Stored bonds and profiles survive failures and crashes", "statement": "If saving, deleting or storing one entry fails or is interrupted by a crash at any point, the entries of other addresses are still there, and the entry itself is as before or as after the call.", "quantifier": "every history of calls, every point of interruption of a write, every file system failure", "why_tests_cant": "crash points", "anchors": ["linux/hci/bond/manager.go: storeBonds, loadBonds", "cache/cache.go: storeCache, loadExisting"]}
{"id": "C58", "title": "Concurrent calls of the bond manager are linearizable", "statement": "Calls of Exists, Find, Save and Delete made at the same time return what they would return if made one after the other in some order that agrees with time.", "quantifier": "any number of calls, all interleavings of their lock, read, truncate and write steps", "why_tests_cant": "schedules", "anchors": ["linux/hci/bond/manager.go: Find, Exists, Save, Delete"]}
{"id": "C59", "title": "A successful Dial returns a client of the dialled peer", "statement": "Whatever was dialled, cancelled or timed out before, a Dial that succeeds returns a client of the peer it was asked for, and a Dial that fails leaves no connection behind that a later Dial could pick up.", "quantifier": "every sequence of Dial calls, cancellations and time-outs, every order of controller events", "why_tests_cant": "schedules of controller events and timers", "anchors": ["linux/hci/gap.go: Dial, cancelDial", "linux/hci/hci.go: handleLEConnectionComplete, chMasterConn"]}
{"id": "C60", "title": "A successful indication was confirmed by the peer", "statement": "Write on an indication notifier returns success only after the peer has confirmed that indication, returns success if the peer confirms it in time, at most one indication is unconfirmed at any time, and no notification or indication is longer than the MTU in force.", "quantifier": "every interleaving of application goroutines writing to notifiers, the server's reader and main goroutine, peer requests, commands, confirmations and time-outs", "why_tests_cant": "schedules: a test sees one interleaving", "anchors": ["linux/att/server.go: notify, indicate, Loop, handleExchangeMTURequest"]}
{"id": "C61", "title": "A central answers the requests of the peripheral it dialled", "statement": "On a dialled connection every request of the peer is answered exactly once, in order, with what the local GATT database answers, also while the application's own calls are in flight; confirmations and commands are not answered; an indication the peer confirms succeeds.", "quantifier": "every interleaving of the client's goroutines, the attachment of the database, the application's calls and the peer's requests", "why_tests_cant": "schedules", "anchors": ["linux/device.go: Dial", "linux/gatt/client.go: NewClient, ClientWithServer", "linux/att/client.go: Loop, asyncReqLoop, sendResp"]}
{"id": "C62", "title": "Init takes over the controller's address and buffers", "statement": "After a successful Init the adapter's address, transmit power and data buffers are those the controller reports: the LE buffers if it has some, otherwise the ACL buffers, never more packets in flight or bytes in a packet than the controller takes; if the controller refuses a question Init fails.", "quantifier": "every controller, i.e. every reply to each of the commands of Init", "why_tests_cant": "all replies of the controller", "anchors": ["linux/hci/hci.go: Init, init", "linux/hci/buffer.go: NewPool", "linux/hci/cmd: ReadBDADDRRP, ReadBufferSizeRP, LEReadBufferSizeRP, LEReadAdvertisingChannelTxPowerRP"]}
{"id": "C63", "title": "Pairing covers the addresses of the connection", "statement": "Pairing with a peer that follows the specification succeeds whatever the adapter's own address is: the confirm and check values cover the addresses and address types the two devices use on the connection.", "quantifier": "every own address and type, every peer, legacy and secure connections", "why_tests_cant": "all addresses; tests use one adapter", "anchors": ["linux/hci/conn.go: initPairingContext, LocalAddr", "linux/hci/smp/manager.go: InitContext", "linux/hci/hci.go: init"]}
{"id": "C64", "title": "StartEncryption encrypts with the key of the pairing", "statement": "StartEncryption on a connection to a bonded peer asks the controller, with exactly one LE Start Encryption command carrying the connection's handle, to encrypt with the long term key, diversifier and random value of the bond stored for that peer's address, whatever other peers were paired, deleted or encrypted in between and across restarts; that is the key the peer computed or distributed in the pairing. For a peer without a bond, or whose bond was deleted or whose encryption failed since, it sends nothing and returns an error. On a connection that is already encrypted it sends nothing. The result of the encryption is offered to the channel of the last call.", "quantifier": "all histories of bond store calls, pairings, StartEncryption calls and Encryption Change events on any number of connections; all keys, addresses, diversifiers, random values and handles", "why_tests_cant": "the key used depends on the whole history of all peers sharing the bond file; a test fixes one history and one key", "anchors": ["linux/hci/conn.go: StartEncryption, encrypt, stkEncrypt, handleEncryptionChanged", "linux/hci/smp/manager.go: StartEncryption, DeleteBondInfo, LegacyPairingInfo", "linux/hci/smp/transport.go: saveBondInfo", "linux/hci/bond/manager.go: Find, Save, Delete"]}
{"id": "C65", "title": "Concurrent writes on a connection arrive whole and in order", "statement": "However many goroutines write on however many connections at the same time (ATT values, signalling, security manager, dynamic channels), as long as no write on a connection fails, the fragments put on the wire for it reassemble to exactly the PDUs whose write returned nil, each whole, in the order of return, followed at most by the beginning of the one being written; a peer running this library delivers exactly these frames in this order, however the link fragments them again.", "quantifier": "all numbers of goroutines, connections, PDUs and PDU sizes, all schedules of single fragment writes and commands, all buffer sizes, all refragmentations by the link", "why_tests_cant": "interleavings of fragment writes depend on the scheduler; a test sees a few", "anchors": ["linux/hci/conn.go: writePDU, Write, recombine", "linux/hci/buffer.go: LockPool, UnlockPool", "linux/hci/hci.go: send"]}
{"id": "C66", "title": "What peers send is read in order, and the exact ways a peer can stall the adapter", "statement": "For every schedule the client of each connection reads exactly what the controller delivered for it, in order and without gaps, with a bounded amount of work per packet. The library comes to rest with something unread only if some client holds a response that no call is waiting for, or waits for a transmit buffer when none is free; so peers that send only notifications and requests never stall it. Both exceptions are real: a peer that sends an unsolicited response followed by 34 PDUs to a central that makes no request stops the event loop of the whole adapter for good (no data for other connections, no command completion, no disconnection is handled any more), and so does a peer that sends one indication more than there are transmit buffers followed by 34 PDUs before the controller reports a completed packet.", "quantifier": "all numbers of connections, buffers, packets and events, all schedules of the event loop, the per-connection goroutines, the ATT client loops and the calling goroutines", "why_tests_cant": "the stall needs a particular backlog and interleaving of four goroutines, and the absence of other stalls is a statement about all of them", "anchors": ["linux/hci/hci.go: sktProcessLoop, handleACL, handleNumberOfCompletedPackets", "linux/hci/conn.go: newConn, recombine, Read", "linux/hci/buffer.go", "linux/att/client.go: sendReq, Loop"]}
{"id": "C67", "title": "Closing the device or losing the transport ends every call with an error and closes every connection", "statement": "After Stop/Close every call that is waiting (command, Dial, Accept) returns by itself, later commands and Dials fail at once, no call reports success for a command the controller has not answered, and the device shuts down: its socket is closed and its connections are closed. When the transport fails the same happens after the packets already read have been handled, and the application learns of it.", "quantifier": "all numbers of calls, packets and connections, all points of closing or failure, all schedules of the reading goroutine, the event loop and the calling goroutines", "why_tests_cant": "shutdown races depend on the schedule and on the point of failure; tests see a few", "anchors": ["linux/hci/hci.go: Close, cleanup, send, sktProcessLoop, sktReadLoop, close, dispatchError, handleLEConnectionComplete", "linux/hci/gap.go: Accept, Dial", "linux/device.go: loop"]}
{"id": "C68", "title": "Connect and Find act on exactly the advertisers the filter accepts, and return when their context ends", "statement": "Connect dials and returns a client only of an advertiser reported during its scan and accepted by the filter; a matching report while it scans is enough for it to go on to dial; it returns an error when its context ends first; it leaves nothing waiting behind. Find returns exactly the accepted advertisements reported during its scan.", "quantifier": "all filters, all sequences of reports, all interleavings of handlers, contexts, controller answers and the event loop, both ways of calling handlers", "why_tests_cant": "cancellation, reports and handlers race; tests see few interleavings", "anchors": ["gatt.go: Connect, Scan, Find", "linux/device.go: Scan", "linux/hci/hci.go: handleLEAdvertisingReport (dispatch of the handler)"]}
{"id": "C69", "title": "Services can be changed at any time without harming connected clients", "statement": "After any sequence of AddService, SetServices and RemoveAllServices the table offered to new clients declares the default services and then the application's, in order, with the application's Service Changed handler if one was given; notifications carry the characteristic's handle in the table the client discovered, and subscriptions are looked up under that characteristic, also for clients that were connected before the change.", "quantifier": "all sequences of calls, all services made of characteristics used once, all characteristics, clients connected before or after a change", "why_tests_cant": "handles live in objects shared between tables; the effect depends on the whole history of calls and connections", "anchors": ["linux/gatt/server.go: NewServerWithNameAndHandler, AddService, SetServices, RemoveAllServices, defaultServicesWithHandler", "linux/att/db.go: NewDB, genCharAttr, newCCCD", "linux/device.go: loop"]}
{"id": "C70", "title": "An advertising packet never exceeds 31 bytes", "statement": "Whatever fields are appended to an advertising packet, in whatever order, fitting or not, the packet is never longer than 31 bytes; NewPacket returns exactly the concatenation of its fields whenever they are legal and fit together, and never more than 31 bytes.", "quantifier": "all packets and all finite sequences of fields of every kind", "why_tests_cant": "sequences of appends are unbounded and the boundary is reached by infinitely many of them", "anchors": ["linux/adv/packet.go: Packet.append, Append, Field constructors, ServiceData16", "linux/adv/const.go: MaxEIRPacketLength"]}
{"id": "C71", "title": "Exactly which received advertisements crash the decoder", "statement": "The decoder of received advertising data panics on a byte string if and only if well-formed records including manufacturer data are followed by a manufacturer record with a one-byte value; on every other byte string it returns, errors are reported and not hidden, and the getters of a decoded packet do not panic.", "quantifier": "all byte strings received over the air", "why_tests_cant": "adversarial over-the-air input: the space is all byte strings", "anchors": ["parser/parser.go: Parse, getArray, decode table", "linux/adv/packet.go: NewRawPacket"]}
{"id": "C72", "title": "Size of every answer of the ATT server", "statement": "Every PDU the ATT server sends in answer to a received PDU is at most the MTU in force at that moment, except that the response to a Prepare Write Request has the length of the request.", "quantifier": "all tables, all handlers, all histories of received PDUs from the start of the connection, all next PDUs", "why_tests_cant": "value sizes, MTU and table contents interact; the off-by-one space is infinite", "anchors": ["linux/att/server.go: handleRequest and all handle* functions", "handler.go: ResponseWriter"]}
{"id": "C73", "title": "Exactly which requests crash the ATT server", "statement": "With application read handlers that return, a received PDU makes the ATT server panic if and only if it is: a Read or Read Blob of a static value that does not fit one response; a Read By Group Type that reaches an attribute without static value with fewer than 4 bytes left; a Prepare Write without complete handle, or without complete offset to a writable attribute; an Execute with nothing prepared; or a write whose handler panics (the library's CCCD handler does on values of fewer than two bytes). Every other PDU is handled.", "quantifier": "all tables with consecutive handles, all server states, all byte strings", "why_tests_cant": "adversarial input over every table", "anchors": ["linux/att/server.go: handleRequest, handlePrepareWriteRequest, handleExecuteWriteRequest, handleReadRequest, handleReadByGroupRequest"]}
{"id": "C74", "title": "A Write Request reaches exactly its attribute", "statement": "A Write Request to a handle runs the write handler of the attribute with that handle, once, with exactly the value bytes (also an empty value), and the response is the handler's verdict; without a write handler, or for a handle not in the table, it is refused with the right error and nothing runs or changes.", "quantifier": "all tables, handles, values and handlers", "why_tests_cant": "all PDUs and tables", "anchors": ["linux/att/server.go: handleWriteRequest, handleWriteCommand, handleATT", "handler.go: Request"]}
{"id": "C75", "title": "CCCD values are per connection and are the last accepted ones", "statement": "After any sequence of PDUs on a connection, reading a CCCD returns the last accepted value written to it on this connection, or 0; a write is accepted exactly when each newly set bit is allowed by the characteristic's properties; other characteristics and connections are not affected.", "quantifier": "all tables, all finite sequences of PDUs, all characteristics", "why_tests_cant": "histories of arbitrary length", "anchors": ["linux/att/db.go: newCCCD", "linux/att/server.go: conn, Loop cleanup"]}
{"id": "C76", "title": "The server follows the peer's MTU requests", "statement": "After any sequence of received PDUs the server uses the MTU of the last acceptable Exchange MTU Request on this connection (23 before any); an acceptable one is answered with the server's MTU, every other one is refused with Invalid PDU and changes nothing.", "quantifier": "all finite sequences of received PDUs, all MTU values", "why_tests_cant": "the in-force MTU governs all later bounds", "anchors": ["linux/att/server.go: handleExchangeMTURequest", "linux/att/client.go: ExchangeMTU", "linux/gatt/client.go: ExchangeMTU"]}
{"id": "C77", "title": "A client call never returns the answer to another call, as long as no call has timed out", "statement": "In every interleaving of calls, requests, responses, notifications and indications in which no call times out, the reply a call returns was sent by the server in answer to that call's request; and in every interleaving, also after timeouts, it is an error response or the response that belongs to the kind of its request.", "quantifier": "all interleavings, all numbers of calls and server messages", "why_tests_cant": "schedules", "anchors": ["linux/att/client.go: sendReq, Loop"]}
{"id": "C78", "title": "Values go to their subscriber, in order, and each indication is confirmed once", "statement": "After any history of subscriptions a received value goes to the handler subscribed for its handle, or to none, and to no other; in every interleaving the values handed to handlers are received values in the order of reception, none twice, and exactly one confirmation is sent per indication read.", "quantifier": "all histories of subscriptions, all interleavings, all received values", "why_tests_cant": "all PDUs and histories", "anchors": ["linux/gatt/client.go: HandleNotification", "linux/att/client.go: Loop, asyncReqLoop"]}
{"id": "C79", "title": "PDUs survive fragmentation", "statement": "For every controller buffer size of at least one byte, a PDU is sent as packets for its connection that fit the buffer, the first marked start, the others continuation, whose data is the PDU, using no more buffers than needed; every sequence of frames on any channels, fragmented in any way that keeps each header in its first fragment, is delivered complete and in order; what one side writes the other side reads.", "quantifier": "all handles, buffer sizes, PDUs, channels and fragmentations that keep the four header bytes in the first fragment", "why_tests_cant": "all sizes", "anchors": ["linux/hci/conn.go: Write, writePDU, recombine, Read", "linux/hci/buffer.go"]}
{"id": "C80", "title": "No data buffer is lost or duplicated", "statement": "After any history of connections, writes, completions, disconnections and closes each of the controller's buffers is in exactly one place: free, or charged to one connection once; a disconnected connection whose clean-up is over has none.", "quantifier": "all pool sizes, all finite histories", "why_tests_cant": "interleavings of arbitrary length", "anchors": ["linux/hci/buffer.go: Pool, Client", "linux/hci/hci.go: handleNumberOfCompletedPackets, cleanupConnectionHandle", "linux/hci/conn.go: writePDU"]}
{"id": "C81", "title": "Replies to commands are matched to their callers", "statement": "In every interleaving of calls and controller events, calls in flight have different opcodes; the reply a call returns is the parameters of a Command Complete or Status event with its opcode handled after the command was written; no event answers two calls; and a Command Complete for a waiting call reaches it.", "quantifier": "all interleavings of any number of calls with any controller events (for replies: without events carrying the vendor opcode group)", "why_tests_cant": "schedules", "anchors": ["linux/hci/hci.go: send, Send, handleCommandComplete, handleCommandStatus, setAllowedCommands"]}
{"id": "C82", "title": "Single-report advertising events reach the application, with the right scan response", "statement": "After every history of events since Scan: each advertisement whose data the parser accepts is handed to the application with its own data; a scan response is attached to the newest of the 127 latest remembered advertisements with its address, and is reported as error if there is none; no advertisement ever has a scan response of another address; a sequence of advertisements arrives complete and in order.", "quantifier": "all histories of advertising events, all events with one report", "why_tests_cant": "histories beyond the ring size", "anchors": ["linux/hci/hci.go: handleLEAdvertisingReport, makeAdvError", "linux/hci/adv.go"]}
{"id": "C83", "title": "Fields of advertising reports", "statement": "For every event payload and every non-negative index no accessor of an advertising report panics, and for every event of up to 255 reports stored array by array each accessor returns exactly the field of the report with that index.", "quantifier": "all event payloads, all non-negative indices, all lists of reports", "why_tests_cant": "all byte strings", "anchors": ["linux/hci/evt/evt_werr.go"]}
{"id": "C84", "title": "A connection is announced closed at most once, only with a cause, and is frozen afterwards", "statement": "After any history: no event, Close or shutdown closes a channel twice or sends on a closed one; Disconnected fires only for a listed connection and only because of a disconnection event for its handle, Close or a reader failure with its handle, or shutdown; afterwards the connection receives nothing and never changes again; Close of a listed connection fires it (unless the device is already shut down and the connection is that of a peripheral).", "quantifier": "all histories of packets and calls, all connections", "why_tests_cant": "race conditions between Close, events and handle reuse", "anchors": ["linux/hci/hci.go: cleanupConnectionHandle, handleDisconnectionComplete, handleLEConnectionComplete, cleanup", "linux/hci/conn.go: Close, newConn"]}
{"id": "C85", "title": "Exactly which parameters are accepted", "statement": "Scan parameters are accepted exactly when the specification allows them; connection parameters exactly when each is in the specified range and the supervision timeout exceeds the library's own bound; the defaults are accepted.", "quantifier": "all values of all parameter fields", "why_tests_cant": "2^100 tuples", "anchors": ["linux/hci/params.go"]}
{"id": "C86", "title": "Signalling messages round trip and are answered with their identifier", "statement": "Every signalling message except Command Reject decodes to what was encoded, also followed by other bytes; identifiers are never 0 and any 255 in a row differ; a PDU of complete commands is handled command by command, in order, and every reply carries the identifier of its command; a response with the expected code and identifier is returned to the caller.", "quantifier": "all messages, all numbers of requests, all PDUs of at most 515 bytes", "why_tests_cant": "all messages", "anchors": ["linux/hci/signal.go", "linux/hci/signal_gen.go"]}
{"id": "C87", "title": "The bond store is a map (nonempty keys)", "statement": "After every history of Save, Delete, Find and Exists on a new store, for bonds with a nonempty key and no file errors, Find returns the last saved and not deleted bond of an address with all its fields, and Exists and Delete agree with it; other addresses are not affected.", "quantifier": "all finite histories, all addresses, all bonds with a nonempty key", "why_tests_cant": "histories", "anchors": ["linux/hci/bond/manager.go"]}
{"id": "C88", "title": "Exactly which security messages crash the process", "statement": "After any history of messages, calls and timeouts on a connection, the next message on the security channel crashes the process if and only if it is empty, one of the fatal messages, or its handler fails after a completed pairing.", "quantifier": "all histories, all messages, all random values and primitives", "why_tests_cant": "adversarial message sequences are unbounded", "anchors": ["linux/hci/smp/manager.go: Handle, waitResult", "linux/hci/smp/handler.go", "linux/hci/smp/context.go"]}
{"id": "C89", "title": "Dial puts the address it is given on the air", "statement": "Dial accepts exactly the colon-separated texts of six-byte addresses in any letter case and refuses all others; it writes one LE Create Connection command with the user's parameters and the address least significant byte first, with type random exactly for a RandomAddress; dialling the address of an advertisement uses the bytes and the type of the report.", "quantifier": "all address texts, all parameters, all reports", "why_tests_cant": "2^48 addresses", "anchors": ["linux/hci/gap.go: Dial", "addr.go", "sliceops/swap.go"]}
{"id": "C90", "title": "Commands are encoded with their length, opcode and fields", "statement": "Every command of the library, whatever the values of its fields and the earlier contents of the buffer, is written as packet type, opcode, parameter length and its fields in order; the length is the declared one; the fields can be read back; no two commands share an opcode; a reply with a non-zero status is returned as that error.", "quantifier": "all commands, all field values, all buffer contents, all replies", "why_tests_cant": "all field values", "anchors": ["linux/hci/cmd/cmd_gen.go", "linux/hci/cmd/cmd.go: marshal", "linux/hci/hci.go: send"]}
{"id": "C91", "title": "After Close every waiting call returns and new ones fail", "statement": "After Close every waiting command, Dial and Accept returns by its own steps only; a new command or Dial fails at once; a command whose return parameters are wanted succeeds only if the controller answered it; the device closes its socket and connections within two steps of its event loop unless that is handing over a new central's connection; after a transport failure the device shuts down the same way once it has handled what it had read, if no new central is among that, and then no call succeeds before Close except a Dial whose connection was already waiting.", "quantifier": "all numbers of calls, all points of closing, all schedules", "why_tests_cant": "shutdown races depend on the schedule and on the point of failure; tests see a few", "anchors": ["linux/hci/hci.go: Close, cleanup, send, sktProcessLoop, sktReadLoop, close, dispatchError, handleLEConnectionComplete", "linux/hci/gap.go: Accept, Dial", "linux/device.go: loop"]}
{"id": "C92", "title": "Connect connects only to a reported advertiser that the filter accepts", "statement": "In every interleaving of reports, handlers, contexts and controller answers, Connect dials, and returns a client of, only an advertiser that was reported during its scan and that the filter accepts; with asynchronous handlers a matching report while it scans always suffices for it to reach the dial; everything Find lists was reported and accepted, and listed at most as often as reported; if handlers do not overlap Find lists every accepted report.", "quantifier": "all filters, all reports, all interleavings", "why_tests_cant": "cancellation, reports and handlers race; tests see few interleavings", "anchors": ["gatt.go: Connect, Scan, Find", "linux/device.go: Scan", "linux/hci/hci.go: handleLEAdvertisingReport (dispatch of the handler)"]}
{"id": "C93", "title": "A client that connects after the last change of services is served correctly", "statement": "After any sequence of service calls the table declares the default services and then exactly the application's services in order, and every notification carries the handle, and every subscription is kept under the handle, that the characteristic has in the current table.", "quantifier": "all sequences of AddService, SetServices and RemoveAllServices with characteristics used once, all characteristics", "why_tests_cant": "handles live in objects shared between tables; the effect depends on the whole history of calls and connections", "anchors": ["linux/gatt/server.go: NewServerWithNameAndHandler, AddService, SetServices, RemoveAllServices, defaultServicesWithHandler", "linux/att/db.go: NewDB, genCharAttr, newCCCD", "linux/device.go: loop"]}
{"id": "C94", "title": "Client requests decode to their arguments", "statement": "Every MTU exchange, find information, read, read blob, read multiple, read by type, read by group type, write request and write command that succeeds has put exactly one request on the air, from which a receiver reads exactly the arguments of the call; and the value in a positive answer to a read, read blob or read multiple is returned unchanged.", "quantifier": "all argument values, all responses", "why_tests_cant": "all arguments", "anchors": ["linux/att/client.go: Read, ReadBlob, Write, PrepareWrite, ExecuteWrite, SignedWrite, FindInformation, ReadByType", "linux/att/att_gen.go"]}
{"id": "C95", "title": "Client calls: exactly when a server's answer crashes them", "statement": "MTU exchange, find information, read, read blob, read multiple, write, prepare write, write command and signed write never panic whatever the server answers; ReadByType and ReadByGroupType panic exactly on responses of at least four bytes announcing entries of length 0; the discovery loops panic exactly on entries shorter than the fields read. (While the transmit buffer is at least as large as the MTU, which C204 is about.)", "quantifier": "all byte strings a server can send, all arguments", "why_tests_cant": "adversarial input", "anchors": ["linux/att/client.go: all request functions, Loop", "linux/gatt/client.go: Discover*"]}
{"id": "C96", "title": "Exactly which packets crash the host", "statement": "A packet from the controller, a signalling PDU, a credit-based frame, an advertising event: for each the exact condition on the bytes (and the history) under which the host panics; all others are handled, ignored or reported.", "quantifier": "all byte strings, all reachable states", "why_tests_cant": "adversarial input", "anchors": ["linux/hci/conn.go: recombine, packet accessors", "linux/hci/signal.go: handleSignal", "linux/hci/coc.go: recieve"]}
{"id": "C97", "title": "A characteristic behaves as the application declared it", "statement": "For every sequence of SetValue, HandleRead, HandleWrite, HandleNotify, HandleIndicate and AddDescriptor calls on a new characteristic: the calls panic exactly if one contradicts an earlier one (value and read handler, two descriptors of one UUID); else a client discovers exactly the property bits those calls declare, a read answers the last value, else what the last read handler writes, else Read Not Permitted; a write runs the last write handler or is refused with Write Not Permitted; the descriptors follow in the order of the calls, and a client characteristic configuration exactly if notifications or indications have a handler. The same for descriptors; AddCharacteristic panics exactly on a repeated UUID.", "quantifier": "all sequences of builder calls, all UUIDs, values and handlers, all positions in the service table, all requests to the value handle", "why_tests_cant": "the sequences of calls are unbounded and the outcome depends on their order", "anchors": ["profile.go: NewCharacteristic, SetValue, HandleRead, HandleWrite, HandleNotify, HandleIndicate, AddDescriptor, AddCharacteristic, Descriptor.SetValue, Descriptor.HandleRead, Descriptor.HandleWrite", "linux/att/db.go: genCharAttr, genDescAttr", "linux/att/server.go: handleReadRequest, handleWriteRequest"]}
{"id": "C98", "title": "Profile.Find returns nil exactly if there is nothing to find", "statement": "Find(target) returns the first service, characteristic or descriptor with the target's UUID, and nil if the profile has none, so that a comparison with nil tells whether something was found.", "quantifier": "all profiles, all targets", "why_tests_cant": "ranges over all profiles and UUIDs", "anchors": ["profile.go: Find, FindService, FindCharacteristic, FindDescriptor"]}
{"id": "C99", "title": "FindService, FindCharacteristic and FindDescriptor return the first match", "statement": "The typed lookups return the first service, characteristic or descriptor with the UUID asked for, in the order of the profile, and nil exactly if no one has it.", "quantifier": "all profiles, all UUIDs", "why_tests_cant": "ranges over all profiles and UUIDs", "anchors": ["profile.go: FindService, FindCharacteristic, FindDescriptor"]}
{"id": "C100", "title": "Advertising goes on while centrals come and go", "statement": "After Advertise was called and StopAdvertising was not called since, the device goes back to advertising after every connection of a central, as soon as everything under way has been handled, whatever the order of connections, disconnections, answers and waiting commands.", "quantifier": "every history of calls, connections, disconnections, orders in which waiting sends get the lock, answers of the controller and timeouts", "why_tests_cant": "The re-enabling send of the event loop races with the application's calls and with further connections; a test fixes one interleaving and a controller that never refuses.", "anchors": ["linux/hci/hci.go:handleLEConnectionComplete", "linux/hci/hci.go:cleanupConnectionHandle", "linux/hci/gap.go:Advertise", "linux/hci/gap.go:StopAdvertising", "linux/device.go:loop"]}
{"id": "C101", "title": "StopAdvertising is final", "statement": "Once StopAdvertising has returned and Advertise was not called since, the controller ends up not advertising when it has executed the commands it was sent, and then no central can connect until Advertise is called again, even if sends that re-enable advertising were still waiting when StopAdvertising was called.", "quantifier": "every history before the call, every interleaving after it, with and without timeouts and refusals", "why_tests_cant": "The claim is about sends of the event loop that are marshalled after the call but were queued before it; every order of the waiting sends has to be considered.", "anchors": ["linux/hci/gap.go:StopAdvertising", "linux/hci/hci.go:send", "linux/hci/hci.go:handleLEConnectionComplete"]}
{"id": "C102", "title": "Every central that connects is served once, in order, and the table of connections is the controller's", "statement": "Every connection of a central gets an ATT server, exactly once and in the order of connection; when everything under way has been handled, the stack's connections are those that are up and those closed are those that ended; and the stack always gets there by itself.", "quantifier": "every history of connections, disconnections, calls, answers and timeouts", "why_tests_cant": "Connections may end before they are handed to the accept loop and commands may be waiting meanwhile; the number of connections is not bounded.", "anchors": ["linux/hci/hci.go:handleLEConnectionComplete", "linux/hci/hci.go:handleDisconnectionComplete", "linux/hci/gap.go:Accept", "linux/device.go:loop"]}
{"id": "C103", "title": "Options: the last one about a setting wins, and NewDevice succeeds exactly when it should", "statement": "With the package's options, in any number and order, every setting of the device is what the last option about it says, or its default, and no option changes another setting; the three transports exclude each other. NewDevice succeeds exactly if a transport was named that can be opened, the connection and scan parameters set last are valid and the controller starts.", "quantifier": "every list of options and every transport and controller", "why_tests_cant": "Lists of options of any length and order; tests look at single options.", "anchors": ["option.go", "linux/hci/option.go", "linux/hci/hci.go:Option", "linux/hci/transport.go:getTransport", "linux/device.go:NewDevice"]}
{"id": "C104", "title": "An option that cannot be applied makes NewDevice fail", "statement": "If an option returns an error, or the device refuses what it asks for, NewDevice returns an error.", "quantifier": "every list of options, also options written by the application", "why_tests_cant": "The outcome depends on the position of the failing option among any number of others.", "anchors": ["linux/hci/hci.go:Option", "option.go:OptEnableSecurity", "option.go:OptPeripheralRole", "linux/hci/option.go:EnableSecurity", "linux/hci/conn.go:Pair"]}
{"id": "C105", "title": "A NewDevice that fails leaves no transport open", "statement": "If NewDevice returns an error, the socket or serial port it may have opened is closed.", "quantifier": "every list of options, every behaviour of transport and controller", "why_tests_cant": "All failure points of the creation of a device have to be considered; tests have no transport.", "anchors": ["linux/device.go:NewDeviceWithNameAndHandler", "linux/hci/hci.go:Init", "linux/hci/hci.go:Close"]}
{"id": "C106", "title": "An advertising call advertises until its context ends", "statement": "A call of Device.Advertise, AdvertiseNameAndServices, AdvertiseMfgData, AdvertiseServiceData16, AdvertiseIBeaconData or AdvertiseIBeacon either returns an error at once and changes nothing, or makes the controller broadcast exactly the data asked for until its context ends, and not after.", "quantifier": "every history of advertising calls, ends of contexts and StopAdvertising, every argument", "why_tests_cant": "What a call does depends on what earlier calls left in the device's buffers and in the controller.", "anchors": ["linux/device.go:Advertise", "linux/device.go:AdvertiseNameAndServices", "linux/hci/gap.go:SetAdvertisement", "linux/hci/gap.go:Advertise", "linux/hci/gap.go:StopAdvertising"]}
{"id": "C107", "title": "AdvertiseRaw broadcasts its packets unchanged, with its parameters, which stay", "statement": "AdvertiseRaw on a device that does not advertise returns nil exactly if both packets have at most 31 bytes; then exactly these packets are broadcast with exactly these parameters, each in its own field of the command. The parameters that later advertising calls send are those of the last AdvertiseRaw, also of one that failed, or else those of the options.", "quantifier": "every packet, parameter set and history of calls; the part about parameters for every controller", "why_tests_cant": "Residues of longer packets of earlier calls stay in the 31-byte arrays; every history has to be considered.", "anchors": ["linux/device.go:AdvertiseRaw", "linux/hci/gap.go:SetAdvertisement", "linux/hci/gap.go:Advertise", "linux/hci/option.go:SetAdvParams"]}
{"id": "C108", "title": "Opening a given adapter waits until it is available", "statement": "Opening the HCI socket of a given adapter retries for up to a minute: if the adapter becomes available within that time the call returns a socket bound to its user channel; otherwise it returns an error, and in either case it affects no descriptor of another part of the program.", "quantifier": "all states of the descriptor table, all histories of the adapter's availability, all files other goroutines open and close meanwhile", "why_tests_cant": "depends on how the adapter's state changes between attempts and on which numbers the system gives to files opened meanwhile", "anchors": ["linux/hci/socket/socket.go: NewSocket, open"]}
{"id": "C109", "title": "Opening any adapter gives the first available one", "statement": "Opening an HCI socket without naming an adapter returns a socket bound to the first adapter of the machine that is available; if none is, an error, with the socket closed; adapters that are not returned are left as they were.", "quantifier": "all sets of adapters and all states they can be in", "why_tests_cant": "depends on the numbering and state of the machine's adapters", "anchors": ["linux/hci/socket/socket.go: NewSocket, open"]}
{"id": "C110", "title": "A socket is closed once and not used after it is closed", "statement": "Whatever goroutines call Read, Write and Close of an HCI socket at the same time: the descriptor is closed exactly once, while it is still the socket's; when a Close call returns it is closed; and no call makes a system call on the descriptor after that.", "quantifier": "all numbers of goroutines, all interleavings, all outcomes of polls, all reuses of the number by the rest of the program", "why_tests_cant": "races between Close and the other calls", "anchors": ["linux/hci/socket/socket.go: Socket.Read, Socket.Write, Socket.Close, Socket.isOpen"]}
{"id": "C111", "title": "Calls on a socket end", "statement": "Concurrent Read, Write and Close calls on an HCI socket never block each other for ever: as long as a call has not returned some call can go on, and every call returns after a bounded number of steps.", "quantifier": "all numbers of goroutines and all interleavings", "why_tests_cant": "deadlocks show only in particular interleavings", "anchors": ["linux/hci/socket/socket.go: Socket.Read, Socket.Write, Socket.Close"]}
{"id": "C112", "title": "Reads of an H4 transport return the packets in order", "statement": "Whatever goroutines read an H4 transport at the same time, the packets they return, in the order they were taken, are the packets found in the received bytes, in order, without loss or repetition; a packet is lost only if a buffer is too small or the transport was closed.", "quantifier": "all numbers of readers, all interleavings with the receive loop, all packets, all buffer sizes", "why_tests_cant": "depends on the interleaving of the receive loop, the readers and Close", "anchors": ["linux/hci/h4/h4.go: h4.Read, h4.rxLoop", "linux/hci/h4/frame.go: frame.Assemble"]}
{"id": "C113", "title": "Closing an H4 transport ends its receive loop", "statement": "When Close of an H4 transport has returned, the underlying connection is closed and the receive goroutine ends.", "quantifier": "all histories of received packets, reads and Close calls", "why_tests_cant": "depends on how much was received and not read when the transport is closed", "anchors": ["linux/hci/h4/h4.go: h4.Close, h4.rxLoop", "linux/hci/h4/frame.go: frame.Assemble"]}
{"id": "C114", "title": "Opening an H4 transport waits for silence", "statement": "Opening an H4 transport sends an HCI Reset and succeeds exactly if a read then finds nothing (an empty read; or a time-out, or for a serial line an end of file, before the deadline) after reads that only gave bytes in time, which are dropped; it never waits beyond the first read that returns after the deadline.", "quantifier": "all sequences of read results and times", "why_tests_cant": "ranges over all sequences of bytes, time-outs and errors of the transport", "anchors": ["linux/hci/h4/h4.go: resetAndWaitIdle, NewSerial, NewSocket"]}
{"id": "C115", "title": "Everything pairing sends is a well-formed SMP message", "statement": "Whatever a peer sends on the security manager channel and whenever it sends it, each frame the device writes there is a complete L2CAP frame on channel 6 whose payload is one SMP message: a code the specification defines with exactly the number of parameter bytes the specification gives for that code.", "quantifier": "all pairing methods and local settings, all states of the exchange, all byte strings received, all sequences of them", "why_tests_cant": "the frames depend on the whole exchange and on every byte string a hostile peer may send; a test covers the exchanges it plays", "anchors": ["linux/hci/smp/transport.go: transport.send and the send functions", "linux/hci/smp/dispatch.go", "linux/hci/smp/handler.go", "linux/hci/smp/manager.go: manager.Handle, manager.Pair"]}
{"id": "C116", "title": "ToMap says what the advertisement says", "statement": "For an advertisement made of one report, ToMap returns the address as twelve lower-case hexadecimal digits (most significant byte first), the address and event types, whether the event type is connectable, the signal strength (-128 for zero) and, under their keys, exactly the decoded records of its data; it never crashes, whatever the event. The transmit power should be the signed number TxPowerLevel returns.", "quantifier": "every report, every advertising data, complete or cut short", "why_tests_cant": "The claim is about every report and every packet content, including the absence of a crash on any of them.", "anchors": ["linux/hci/adv.go:ToMap", "linux/hci/adv_werr.go", "linux/adv/packet.go:NewRawPacket"]}
{"id": "C117", "title": "An advertisement handed to the application does not change", "statement": "After an advertisement has been handed to the handler, its address, types, connectability, signal strength, data and decoded content stay the same whatever the controller reports later; every report that is no scan response is handed out as an object of its own.", "quantifier": "every history of advertising reports, before and after the advertisement was handed out, every advertisement", "why_tests_cant": "It ranges over all later histories of reports from any number of devices, and over which objects are shared.", "anchors": ["linux/hci/hci.go:handleLEAdvertisingReport", "linux/hci/adv.go:setScanResponse", "linux/hci/adv.go:newAdvertisement"]}
{"id": "C118", "title": "Scanning calls: every report is handed out once, in order, to the scan in progress", "statement": "Whatever scanning calls are made from whatever goroutines, every report the controller sends is dispatched exactly once, in order, to the handler set last. When all blocking scans, however they overlapped, have returned without a refused command, the controller is not scanning and nothing is left to dispatch. For scans one after the other: every report sent during a call goes to that call's handler, before the call returns; the controller scans only during a call and filters duplicates exactly if that call asked for it.", "quantifier": "every number of calls of Scan/NonblockingScan/StopScan, every interleaving of their steps with the event loop, the controller and the ends of their contexts", "why_tests_cant": "It is a claim about all schedules of any number of goroutines.", "anchors": ["linux/device.go:Scan", "linux/device.go:NonblockingScan", "linux/device.go:StopScan", "linux/hci/gap.go:Scan", "linux/hci/gap.go:StopScanning", "linux/hci/gap.go:SetAdvHandler", "linux/hci/hci.go:send", "linux/hci/hci.go:handleLEAdvertisingReport"]}
{"id": "C119", "title": "Overlapping scans do not disturb each other", "statement": "While a scan is in progress its handler is called for every report, whatever other scans begin or end; a scan that returned is not called any more; a call that starts (stops) scanning and is accepted by the controller has started (stopped) it.", "quantifier": "every number of overlapping calls, every interleaving", "why_tests_cant": "It is a claim about all interleavings of concurrent calls.", "anchors": ["linux/device.go:Scan", "linux/hci/gap.go:Scan", "linux/hci/gap.go:StopScanning", "linux/hci/gap.go:SetAdvHandler"]}
{"id": "C120", "title": "Every call of a GATT client returns", "statement": "Whatever methods of a GATT client are called from whatever goroutines and whatever notifications arrive, every call returns and every notification is handed to its handler, after a bounded number of steps of the program itself; methods and handlers exclude each other.", "quantifier": "every number of calls, every sequence of notifications, every interleaving", "why_tests_cant": "Freedom from deadlock is a claim about all schedules and about all handlers an application may install.", "anchors": ["linux/gatt/client.go:HandleNotification", "linux/gatt/client.go:CancelConnection", "linux/gatt/client.go:Disconnected", "linux/att/client.go:sendReq", "linux/att/client.go:Loop"]}
{"id": "C121", "title": "The fields of ATT PDUs are where the specification puts them", "statement": "The exported ATT PDU types are those of the specification, with its opcodes and fields. Filling in a PDU gives exactly the specified octets whatever was in the buffer, reading a specified PDU gives every field its value, setting a field changes no other one, and the accessors panic exactly if the slice is too short.", "quantifier": "every PDU type, all field values, all previous contents and lengths of the slice", "why_tests_cant": "It ranges over all values of all fields of all 28 types and all buffers.", "anchors": ["linux/att/att_gen.go"]}
{"id": "C122", "title": "Client calls have the same outcome over the air as on the server itself", "statement": "For a client and a server of this library connected through two controllers, every client call has the outcome the server's own handling of the requests gives, however the controllers' buffer sizes and the air cut up the data: reads return the server's value, a write runs the handler once on exactly the bytes written, discovery finds the whole profile, the MTU exchange succeeds.", "quantifier": "every server table and state, every call, all controller buffer sizes, every way of cutting each PDU into ACL packets (different each time), all earlier contents of the read buffers, every MTU", "why_tests_cant": "It composes fragmentation, recombination, server and client for all tables, values and fragmentations.", "anchors": ["linux/hci/conn.go: Write, writePDU, recombine, Read", "linux/att/server.go: Loop, handleRequest", "linux/att/client.go: sendReq", "linux/gatt/client.go: DiscoverProfile, ReadLongCharacteristic"]}
{"id": "C123", "title": "The server's reading and handling goroutines together handle every request once, in order, unmixed", "statement": "While a handler runs the server already reads the next PDU. For every schedule: handlers see exactly the bytes of the request that arrived for as long as they run, requests are handled one at a time in the order they arrived, none skipped or repeated, responses are sent in that order, the state is that of a server handling them one after the other; whenever the program can do no more, every request has been handled and it waits for the next one or has ended because the connection has; it never deadlocks on its buffers and adds no panic of its own.", "quantifier": "every schedule of the two goroutines, all sequences of PDUs up to 515 bytes, every time the connection ends, all durations of handlers, every server table and state", "why_tests_cant": "Buffers are shared between two goroutines; only an invariant over all interleavings excludes overwriting.", "anchors": ["linux/att/server.go: Server.Loop, handleRequest"]}
{"id": "C124", "title": "An indication sent by a handler completes when the peer confirms it", "statement": "If a handler sends an indication on its own connection and the peer confirms it, the call succeeds.", "quantifier": "every schedule, all PDUs the peer sends before the confirmation", "why_tests_cant": "The failure needs a request to arrive between the indication and its confirmation while a handler runs.", "anchors": ["linux/att/server.go: Server.Loop, indicate"]}
{"id": "C125", "title": "The parameters of HCI events are read where the specification puts them", "statement": "Every event type of the library has the code, subevent code and parameters of the specification; for every event a controller can send, each getter returns exactly its parameter, whatever follows; a getter panics only on an event too short for it.", "quantifier": "all event types of the library, all parameter values, all octets behind them, all short events", "why_tests_cant": "All values of all parameters of all events, including 64-bit numbers.", "anchors": ["linux/hci/evt/evt_gen.go: all types and methods"]}
{"id": "C126", "title": "Overlapping calls of Dial each return a client of the peer they were called for", "statement": "However many goroutines call Dial at the same time, a successful call returns a client of the peer it was called for, and no two calls return clients on the same connection.", "quantifier": "any number of calls, all peers, every schedule, every time at which contexts end", "why_tests_cant": "The failures need particular interleavings between writing the shared parameters, the opcode lock and the channel.", "anchors": ["linux/hci/gap.go: Dial, cancelDial", "linux/hci/hci.go: send, handleLEConnectionComplete"]}
{"id": "C127", "title": "What one program writes on a connection is what the other program reads, through both hosts, the link and the serial line", "statement": "Whatever is written on a connection by any number of goroutines of one program is delivered by the same connection in the program at the other end: whole, once, in the order in which the writes returned; however the controllers fragment it, however its packets are mixed with those of other connections and with events, and however the serial line cuts the bytes into reads.", "quantifier": "all PDUs, all schedules of the writers, all fragmentations, all interleavings with other packets and with the closing of other connections, all cuttings of the byte stream", "why_tests_cant": "The number of ways to interleave, fragment and cut is unbounded, and the parts work only in particular combinations.", "anchors": ["linux/hci/conn.go: Write, writePDU, recombine, Read", "linux/hci/hci.go: sktLoop, handlePkt, handleACL", "linux/hci/h4/frame.go: Assemble", "linux/hci/h4/h4.go: Read"]}
{"id": "C128", "title": "An interrupt during a package-level call runs the application's function; otherwise it has its default effect", "statement": "If SIGINT or SIGTERM comes while a call (Advertise…, Scan, Find, Dial) is in progress whose context was made by WithSigHandler, the process goes on and the given function is called, once for the call and during the call; if no such call is in progress the signal has its default effect, also after earlier calls have returned. A call that has returned leaves nothing behind.", "quantifier": "all numbers of concurrent and nested calls, all contexts, all times of signals, of context ends and of returns, all schedules of the goroutines", "why_tests_cant": "Whether the signal, the return of the call or the end of the context comes first is a race; leftovers show only over many calls.", "anchors": ["gatt.go: WithSigHandler, trap, untrap, Scan, Find, Dial, AdvertiseNameAndServices"]}
{"id": "C129", "title": "A subscriber of a credit-based channel gets the SDUs in order and then sees the end", "statement": "From the moment Subscribe returns until Unsubscribe or Close, the SDUs that arrive in whole frames on the channel can be read from the subscription's channel, whole, once and in order, whatever happens on other channels and in other goroutines; an SDU is dropped only if the application leaves eight unread for five seconds. Ending the subscription while data arrive never crashes; the application can read what had arrived and then sees the channel closed. It also sees it closed when the connection ends.", "quantifier": "all interleavings of subscribing, unsubscribing, closing, opening, arriving frames, time-outs and reads, any number of channels", "why_tests_cant": "A send on a closed channel, or a lost SDU, needs a particular schedule of the goroutines.", "anchors": ["linux/hci/coc.go: recieve, Subscribe, Unsubscribe, CloseChannel, addChannel, lookupLocalCID", "linux/hci/conn.go: recombine"]}
{"id": "C130", "title": "Signalling requests made at the same time get their own responses", "statement": "Channels can be opened from several goroutines while data arrive on other channels: every signalling request in flight has an identifier of its own, each call returns the response to its own request, and a response in time makes the call succeed. A response never blocks the goroutine that receives the connection's data.", "quantifier": "all numbers of concurrent calls, with and without an expected response, all schedules (each access to shared state is a step), all orders and times of responses", "why_tests_cant": "Crossing needs two calls to be between particular lines; tests open channels one at a time.", "anchors": ["linux/hci/signal.go: Signal, handleSignal", "linux/hci/coc.go: Open, returnCredit"]}
{"id": "C131", "title": "Functions of the application may use the device they are called by", "statement": "The error handler and a synchronous advertising handler may call methods of the device (stop scanning, reset, hang up): such a call returns, and succeeds if the controller executes the command; meanwhile and afterwards the calls of other goroutines return too.", "quantifier": "all functions (any sequence of commands, any opcodes), all numbers of calls by any goroutines, all replies, late or missing, all schedules, Close at any time", "why_tests_cant": "Whether a handler's command hangs depends on who holds which opcode lock and on what the event loop is doing when the handler runs.", "anchors": ["linux/hci/hci.go: send, dispatchError, sktProcessLoop, handleLEAdvertisingReport, LockOpCode", "linux/hci/gap.go: SetAdvHandler"]}
{"id": "C132", "title": "Overlapping calls of Dial all return", "statement": "However calls of Dial overlap, every one returns once its context has ended or its time is up, if the controller answers commands: none waits for ever for another call, for a connection another call has taken, or behind an event loop that waits for somebody to take a connection. A call whose context ends before the connection is made cancels the attempt.", "quantifier": "all numbers of calls, all targets, all schedules of calls, event loop and controller, contexts ending at any time, connections made at any time", "why_tests_cant": "A deadlock needs a particular order of two calls, the event loop and the controller; tests dial one peer at a time.", "anchors": ["linux/hci/gap.go: Dial, cancelDial", "linux/hci/hci.go: handleLEConnectionComplete, send"]}
{"id": "C133", "title": "Exactly which failed NewDevice leaves a transport open", "statement": "A NewDevice that fails leaves an open transport behind exactly if its options were accepted, the transport could be opened and the connection or scan parameters are not valid. In every other case of failure nothing was opened, or what was opened is being closed.", "quantifier": "all option lists, all outcomes of opening the transport, all controllers", "why_tests_cant": "ranges over all option lists and failures of the transport and the controller", "anchors": ["linux/device.go: NewDeviceWithNameAndHandler", "linux/hci/hci.go: Init, Close"]}
{"id": "C134", "title": "Exactly which option errors NewDevice reports", "statement": "NewDevice fails with an error of an option exactly if the last option given returns that error after all the others were applied; nothing was opened then. The options of the package never make it fail this way.", "quantifier": "all option lists, all options the application writes itself", "why_tests_cant": "ranges over all option lists", "anchors": ["linux/hci/hci.go: Option", "option.go", "linux/hci/option.go"]}
{"id": "C135", "title": "A peripheral without listener timeout goes on", "statement": "A peripheral without a listener timeout, on a controller that never refuses to start advertising: after any history of calls, connections and disconnections the stack comes to rest by itself after a bounded number of steps; every central that connected has then been served once and in order, the stack's connections are the controller's, and if the last call was Advertise the controller advertises.", "quantifier": "all histories of calls, connections and disconnections, all schedules", "why_tests_cant": "a property of every schedule and of the state the stack comes to", "anchors": ["linux/device.go: NewDeviceWithNameAndHandler, loop", "linux/hci/hci.go: handleLEConnectionComplete, handleDisconnectionComplete"]}
{"id": "C136", "title": "Advertising calls on a conforming controller", "statement": "On a controller that keeps to the specification, every history of advertising calls, ends of their contexts, AdvertiseRaw and StopAdvertising has exactly the effect of a small specification: what is broadcast with which parameters, and what each call returns.", "quantifier": "all histories of advertising calls, all contents", "why_tests_cant": "ranges over all histories of calls", "anchors": ["linux/device.go", "linux/hci/gap.go"]}
{"id": "C137", "title": "Opening an adapter", "statement": "Opening the adapter with a given number succeeds exactly if the adapter is available at the first attempt; the socket is bound to it and nothing else changes. If it fails and nobody else opens or closes files meanwhile, no descriptor stays open. Asking for any adapter, on a machine that numbers at most 16 adapters without a gap and where no socket reports an error after it was bound, opens the first one available or leaves nothing open.", "quantifier": "all adapters and states of them, all descriptor tables", "why_tests_cant": "ranges over all states of the operating system", "anchors": ["linux/hci/socket/socket.go: NewSocket, open"]}
{"id": "C138", "title": "An HCI socket is closed once", "statement": "Whatever goroutines call Read, Write and Close on an HCI socket, in whatever interleaving: the descriptor is closed at most once and only while it is this socket's; when any Close has returned it has been closed; a Read that polled the socket reads the socket, and nothing is read from a number that stands for nothing.", "quantifier": "all numbers of goroutines, all interleavings, reuse of the descriptor by others at any time", "why_tests_cant": "a property of every interleaving with the operating system's reuse of numbers", "anchors": ["linux/hci/socket/socket.go: Read, Write, Close"]}
{"id": "C139", "title": "The receive loop of a closed H4 transport ends exactly if its packets fit", "statement": "When an H4 transport has been closed and no Read is in progress, the receive loop can end if, and only if, the packets it holds fit on the queue of 64 with those not read.", "quantifier": "all histories, all schedules, all packets", "why_tests_cant": "a property of every schedule; the failing case needs a full queue at the moment of closing", "anchors": ["linux/hci/h4/h4.go: h4.Close, h4.rxLoop, h4.Read", "linux/hci/h4/frame.go: frame.Assemble"]}
{"id": "C140", "title": "Exactly how a handed-out advertisement can change", "statement": "An advertisement handed to the application stays as it is, unless it is of this scan, connectable or scannable undirected, and a scan response comes from the same address: then that response and the content of both are in it. Address, types, connectability, signal strength and advertising data stay in any case.", "quantifier": "all sequences of reports before and after", "why_tests_cant": "ranges over all sequences of reports from the air", "anchors": ["linux/hci/hci.go: handleLEAdvertisingReport", "linux/hci/adv.go"]}
{"id": "C141", "title": "Calls of a GATT client return if no handler calls its own client", "statement": "If no notification handler calls a method of its client, at most one call or handler is at work at a time, and whatever calls are made and notifications come in, the program goes on by itself, for a bounded number of steps, until every call has returned and every notification has been handled.", "quantifier": "all numbers of calls and notifications, all schedules", "why_tests_cant": "a deadlock needs a particular schedule", "anchors": ["linux/gatt/client.go", "linux/att/client.go: Loop, asyncReqLoop"]}
{"id": "C142", "title": "ATT PDUs but Signed Write", "statement": "For every ATT PDU type but Signed Write Command: its octets are those of the specification; filling it in gives them, reading them gives every field its value, and setting a field changes nothing else. An accessor panics exactly if the PDU is too short.", "quantifier": "all PDU types but one, all values, all octets", "why_tests_cant": "ranges over all values of all fields", "anchors": ["linux/att/att_gen.go"]}
{"id": "C143", "title": "Parameters of HCI events", "statement": "The event types have the names, subevent codes and parameters of the specification, in its order and sizes; each parameter is read where the specification puts it, whatever follows, and the getter panics exactly if the event is too short.", "quantifier": "all event types, all values, all octets", "why_tests_cant": "ranges over all values of all parameters", "anchors": ["linux/hci/evt/evt_gen.go"]}
{"id": "C144", "title": "Discovery, reading, writing and MTU exchange over the air", "statement": "Client and server on two hosts, with fragments cut by any faithful radio: each call of the client has the effect and the result it would have by handing the PDUs to the server directly; so discovery gives the server's profile, a long read its value, a write reaches the handler, and the MTU exchange gives both sides their values.", "quantifier": "all profiles, values, MTUs, buffer sizes, all faithful radios", "why_tests_cant": "ranges over all profiles and ways of cutting", "anchors": ["linux/gatt/client.go", "linux/att/client.go", "linux/att/server.go", "linux/hci/conn.go"]}
{"id": "C145", "title": "Overlapping Dials share no connection and lose none", "statement": "However calls of Dial overlap: each connection made goes to exactly one call, is given up or waits; no two calls get the same; the address and type are ones some call asked for; if all calls are for one peer each gets that peer; a connection is dropped only if the queue of connections is full.", "quantifier": "all numbers of calls, all schedules", "why_tests_cant": "a property of every schedule of several calls, the event loop and the controller", "anchors": ["linux/hci/gap.go: Dial, cancelDial", "linux/hci/hci.go: handleLEConnectionComplete"]}
{"id": "C146", "title": "When an interrupt handler runs and when an interrupt kills", "statement": "The function given to WithSigHandler is called on behalf of a call only if SIGINT or SIGTERM came while that call was in progress, and at most once per call. The signal ends the process exactly if no call is in progress whose context carries a function. If it comes during such a call whose context has not ended, then as long as the context goes on and the process lives, the function has been called for the call or can be: nothing takes the signal away.", "quantifier": "all histories of calls, signals and ends of contexts, all schedules", "why_tests_cant": "ranges over all schedules of signals", "anchors": ["gatt.go: WithSigHandler, trap, untrap, Scan, Find, Dial, AdvertiseNameAndServices"]}
{"id": "C147", "title": "Receiving on a credit-based channel", "statement": "Receiving on credit-based channels: no interleaving of arriving frames that carry their length field, subscribing, unsubscribing, closing and reading crashes the host; between Subscribe and Unsubscribe or Close the subscriber gets the SDUs of whole frames whole, once and in order, and one is given up only when its channel holds eight; the receiver never waits for ever; the subscriber sees the end exactly when it has read everything and the application itself has ended the subscription.", "quantifier": "all sequences of frames, subscriptions and ends, all schedules", "why_tests_cant": "a property of every schedule of reader, application and event loop", "anchors": ["linux/hci/coc.go: Subscribe, Unsubscribe, Close, recieve"]}
{"id": "C148", "title": "Signalling calls that do not overlap", "statement": "Signalling calls that do not overlap: responses never block the receiver; a call never refuses a response because of its identifier; the response it returns is to a request with its own identifier, and to its own request if no call has timed out.", "quantifier": "all histories of calls, responses and timeouts, all schedules", "why_tests_cant": "a property of every schedule of caller and receiver", "anchors": ["linux/hci/signal.go: Signal, handleSignal"]}
{"id": "C149", "title": "Calls can return if the error handler sends no commands", "statement": "If the error handler sends no commands, every call that sends commands can return, whatever has happened and without the controller, and so can every function that the event loop calls.", "quantifier": "all histories of calls, replies, timeouts and callbacks, all schedules", "why_tests_cant": "a deadlock needs a particular schedule", "anchors": ["linux/hci/hci.go: send, sktProcessLoop, handleCommandComplete"]}
{"id": "C150", "title": "What becomes of an indication sent by a handler", "statement": "An indication that a request handler sends, while nothing that came after it has been read: if the peer's next PDU is the confirmation, the call succeeds within two steps; if it is any other PDU, the call cannot succeed any more, whatever the peer sends, and ends by the timeout only.", "quantifier": "all histories, all PDUs, all schedules", "why_tests_cant": "a property of every schedule of the two goroutines of the server", "anchors": ["linux/att/server.go: Loop, indicate", "linux/gatt/server.go"]}
{"id": "C151", "title": "PDUs cross both hosts", "statement": "From the goroutine that writes on one host to the reader of the connection on another: under every schedule of writers, none failing, every cut into fragments with the header in the first, every mix with other connections' packets, events and stray bytes, and every cut of the bytes on a serial line without pauses, the receiving connection delivers exactly the frames whose write has returned, whole, once, in that order, each at the place for its channel.", "quantifier": "all schedules, PDUs, buffer sizes, fragmentations, interleavings and cuts", "why_tests_cant": "ranges over schedules on two hosts and all cuts of the bytes", "anchors": ["linux/hci/conn.go", "linux/hci/hci.go", "linux/hci/h4"]}
{"id": "C152", "title": "Exactly what ToMap returns", "statement": "ToMap of an advertisement made from a report returns, with the address, types, signal strength and decoded content; the transmit power is there exactly if the content has a non-empty record of it, as the unsigned value of its first octet.", "quantifier": "all reports, all contents", "why_tests_cant": "ranges over all reports from the air", "anchors": ["linux/hci/adv.go: ToMap"]}
{"id": "C153", "title": "The error handler hears of each failed packet once", "statement": "The function set as the error handler of a device is called for every received packet that could not be handled, once for each, with an error that says what failed, and for nothing else.", "quantifier": "all packets, all histories of advertising events before", "why_tests_cant": "ranges over all packets and all histories since the scan was started", "anchors": ["linux/hci/hci.go: handleEvt, handleLEMeta, handleLEAdvertisingReport, makeAdvError, handleCommandStatus, handleVendorEvent, dispatchError"]}
{"id": "C154", "title": "Exactly what the error handler is told of each received packet", "statement": "The error handler is told something of a packet exactly if it is an event of the announced length that is a vendor event (then it is told nil), a Command Status shorter than four octets, or, while there is an advertising handler, an advertising event that is not handed to the application; in that case what it is told is determined by the event and the last 127 advertisements.", "quantifier": "all packets, all histories of advertising events before", "why_tests_cant": "ranges over all packets and all histories since the scan was started", "anchors": ["linux/hci/hci.go: handleEvt, handleLEMeta, handleLEAdvertisingReport, makeAdvError, handleCommandStatus, handleVendorEvent, dispatchError"]}
{"id": "C155", "title": "Exactly which writes reach the application", "statement": "Whatever PDUs a peer sends, the write handlers of the application get exactly: the value of each Write Request to a writable handle, the value of each non-empty Write Command to a writable handle, and on each Execute Write with flag 1 the concatenation of all values prepared for writable handles since the last Execute Write, at the handle of the first of them; in the order of arrival, each once, and nothing else.", "quantifier": "all attribute tables, all applications, all sequences of PDUs of any form", "why_tests_cant": "ranges over all sequences of PDUs and all attribute tables", "anchors": ["linux/att/server.go: handleWriteRequest, handlePrepareWriteRequest, handleExecuteWriteRequest, handleWriteCommand, handleATT"]}
{"id": "C156", "title": "Exactly when the server answers", "statement": "The server sends nothing in answer to a PDU exactly if the PDU is empty, a Write Command or a confirmation; any other PDU is answered by exactly one PDU, the response that belongs to it or an Error Response naming its opcode.", "quantifier": "all servers, all PDUs", "why_tests_cant": "ranges over all PDUs and all states of the server", "anchors": ["linux/att/server.go: handleRequest, newErrorResponse, handleWriteCommand"]}
{"id": "C157", "title": "Exactly what ReadLongCharacteristic returns", "statement": "For a value served by a handler, ReadLongCharacteristic returns without an error the whole value if the client's transmit MTU is at most the server's MTU, and otherwise exactly the part that fits in one response.", "quantifier": "all values, MTUs and handles", "why_tests_cant": "ranges over all lengths and MTUs", "anchors": ["linux/gatt/client.go: ReadLongCharacteristic", "linux/att/server.go: handleReadRequest, handleReadBlobRequest"]}
{"id": "C158", "title": "Exactly which SDUs survive segmentation", "statement": "Send writes frames of the channel, within the MPS, that carry the SDU's length and together the SDU; they are a segmentation in the sense of the specification exactly if the SDU is not empty and fits in one frame. An SDU of a peer following the specification is delivered to a subscriber exactly if it was sent in one frame.", "quantifier": "all SDUs, channels, MPS and segmentations", "why_tests_cant": "ranges over all SDUs, MPS and segmentations", "anchors": ["linux/hci/coc.go: Send, recieve"]}
{"id": "C159", "title": "Exactly which pairing method is used", "statement": "After a Pairing Response the method is the one of the specification's table for the two feature sets, with secure connections exactly if the response has that bit; except that in legacy pairing in which only one side has OOB data, OOB is used.", "quantifier": "all pairs of feature sets with assigned IO capabilities", "why_tests_cant": "ranges over all feature sets and all states of the pairing", "anchors": ["linux/hci/smp/context.go: determinePairingType", "linux/hci/smp/const.go: ioCapsTableSC, ioCapsTableLegacy", "linux/hci/smp/util.go: isLegacy"]}
{"id": "C160", "title": "Exactly what Init sends", "statement": "Whatever transport and controller do, Init writes nothing if the parameters are invalid and otherwise only the nine start-up commands followed by the two that set the device's advertising and scan parameters, in this order and each at most once; all nine if the transport works and the controller lets the host send; and the last two then exactly if Init succeeds. The adapter's values are those of the replies to these commands.", "quantifier": "all transports and controllers with any state, all parameters of the device", "why_tests_cant": "ranges over all behaviours of transport and controller", "anchors": ["linux/hci/hci.go: Init, init, Send, send", "linux/hci/params.go: init, validate"]}
{"id": "C161", "title": "The events the library reacts to are switched on", "statement": "After a successful Init a controller that follows the specification sends every event for which the library has a handler.", "quantifier": "all controllers that keep their event masks as the specification says, all parameters of the device", "why_tests_cant": "ranges over all behaviours of the controller", "anchors": ["linux/hci/hci.go: Init, init, handleLEConnectionParameterRequest"]}
{"id": "C162", "title": "Exactly what each received packet does", "statement": "Every packet of the controller that does not crash the host does exactly what a table by packet type, event code and subevent code says: it delivers command results and allowances, returns buffers, opens or closes connections, sets the encryption state, hands over advertisements or ACL data, always for the connection handle in the packet and only if that connection exists; anything else, also an event whose length octet is wrong, does nothing.", "quantifier": "all packets, all tables of connections, all histories of advertisements", "why_tests_cant": "ranges over all octet strings and all connection tables", "anchors": ["linux/hci/hci.go: handlePkt, handleACL, handleEvt, handleLEMeta, handleCommandComplete, handleCommandStatus, handleDisconnectionComplete, handleEncryptionChange, handleEncryptionKeyRefreshComplete, handleNumberOfCompletedPackets, handleLEConnectionComplete"]}
{"id": "C163", "title": "Indications end with their connection", "statement": "When a connection ends, at whatever moment, or writes to it fail, every call that sends an indication on it returns, with an error unless the peer had confirmed that indication; none succeeds afterwards, none returns twice, and the server ends its loop and closes the connection's notifiers, all without waiting for a time-out.", "quantifier": "all interleavings of any number of notifying and indicating goroutines, the server's goroutines and the peer, with the connection ending and writes failing at any points", "why_tests_cant": "ranges over all interleavings and all moments of the loss", "anchors": ["linux/att/server.go: notify, indicate, Loop"]}
{"id": "C164", "title": "DiscoverAndCacheProfile returns the peer's whole profile", "statement": "Whatever was cached before and whatever calls were made, DiscoverAndCacheProfile returns an error or the whole profile of the peer, each service, characteristic and descriptor once, and only whole profiles get into the cache.", "quantifier": "all histories of calls by all clients, forced and not, all peers' tables, all failures of exchanges and of the file system, with and without a cache file", "why_tests_cant": "The outcome depends on the history of earlier calls of other clients and on where one of them failed.", "anchors": ["linux/gatt/client.go: DiscoverAndCacheProfile, DiscoverProfile", "cache/cache.go: Store, Load"]}
{"id": "C165", "title": "Exactly what DiscoverAndCacheProfile does", "statement": "An unforced call for an address with a cached profile returns that profile without asking the peer and without changing the cache; any other call does what DiscoverProfile does, and if that succeeded stores its profile, replacing an older one, and returns it, with the error of the store if there is one; if discovery failed, the cache is unchanged. Without a cache a call whose discovery succeeds panics.", "quantifier": "all peers (any function from requests to responses), all states of the client, all contents of the cache file and all failures of the file system", "why_tests_cant": "All combinations of cache contents, client state and failures.", "anchors": ["linux/gatt/client.go: DiscoverAndCacheProfile"]}
{"id": "C166", "title": "Where stored bonds come from", "statement": "In every history of a connection, whatever the peer sends: a bond is stored only for the peer's own address, and only in answer to a correct DHKey check of an exchange that was run before or to a Master Identification; its key is the LTK of an exchange run before, or a key the store already had, or a key the peer sent in an Encryption Information.", "quantifier": "all histories of messages, calls of Pair and timeouts of a connection, all messages of any length, all outcomes of the bond store, all cryptographic primitives", "why_tests_cant": "A statement about all sequences of messages a peer can send.", "anchors": ["linux/hci/smp/handler.go: smpOnDHKeyCheck, smpOnMasterIdentification, smpOnEncryptionInformation, smpOnSecurityRequest", "linux/hci/smp/transport.go: saveBondInfo"]}
{"id": "C167", "title": "The attribute table after any history of service calls", "statement": "After any sequence of AddService, SetServices and RemoveAllServices that leaves room in the handle space, the table has handles 1, 2, 3, ... and lists the offered services in order, each with its declaration, and for each of its characteristics the declaration, the value, its descriptors and, if it can notify or indicate, as many CCCDs as calls have been made since the service was given, that one included; all these CCCDs read and write the same configuration.", "quantifier": "all default services, all histories of service calls, all services, characteristics and descriptors with any values and handlers", "why_tests_cant": "Ranges over all histories of calls and all services; the handles depend on all of them.", "anchors": ["linux/gatt/server.go: AddService, SetServices, RemoveAllServices, NewServerWithNameAndHandler", "linux/att/db.go: NewDB, genSvcAttr, genCharAttr, genDescAttr"]}
{"id": "C168", "title": "The bond store under failures and crashes, exactly", "statement": "Whatever fails and wherever calls are interrupted: a bond that Find returns was saved for this very address, by a Save after which no working call has saved or deleted a bond of the address. After a Save that returned nil, Find returns the bond whenever the file can be read, until the next Save or Delete of the address, unless a write was interrupted in the middle. A call does what it would do without failures, or nothing; only a Save or Delete whose write is interrupted can do anything else: it may leave no bond at all, or a store in which every later call fails.", "quantifier": "all histories of calls, all file system failures, all points of interruption of a write", "why_tests_cant": "Ranges over all histories, failures and crash points.", "anchors": ["linux/hci/bond/manager.go: Save, Find, Delete, Exists, loadBonds, storeBonds"]}
{"id": "C169", "title": "What makes Pair return nil", "statement": "In every history of a connection: a call of Pair that returns nil does so because of a message that arrived after the call, which is a DHKey check with the right value under the MacKey of an exchange run before, or in legacy pairing a nonce to which an earlier confirm value commits under a temporary key of the call, or a Master Identification message (which needs no pairing at all).", "quantifier": "every history of security messages, calls of Pair and timeouts", "why_tests_cant": "Ranges over all histories and all cryptographic inputs.", "anchors": ["linux/hci/smp/manager.go: Pair, waitResult, Handle", "linux/hci/smp/handlers.go: smpOnDHKeyCheck, smpOnPairingRandom, smpOnMasterIdentification"]}
{"id": "C170", "title": "A connection's encryption is what the last Encryption Change event said", "statement": "While a connection is listed its encryption state is that of the last Encryption Change event for its handle; Encryption Key Refresh events change nothing.", "quantifier": "all histories of packets, calls to Close and shutdown", "why_tests_cant": "Ranges over all histories with other connections' events interleaved.", "anchors": ["linux/hci/hci.go: Init, handleEncryptionChange", "linux/hci/conn.go: handleEncryptionChanged"]}
{"id": "C171", "title": "Concurrent bond calls that save no empty key are linearizable", "statement": "Calls of the bond manager made at the same time behave as if made one after the other in an order that respects real time, each with the result it would have in that order, as long as no call saves an empty key.", "quantifier": "any number of calls, all interleavings of their lock, read, truncate and write steps", "why_tests_cant": "Ranges over all interleavings.", "anchors": ["linux/hci/bond/manager.go: Find, Exists, Save, Delete"]}
{"id": "C172", "title": "With a prompt controller a successful Dial returns the dialled peer", "statement": "If the controller raises the events of the connections it has made before it answers a command, every successful Dial returns a client of the peer it dialled, no connection is lost, and a finished call leaves nothing behind; with any controller the client is of a peer dialled by this or an earlier call.", "quantifier": "every sequence of Dial calls, cancellations and time-outs, every order of controller events", "why_tests_cant": "Ranges over all schedules.", "anchors": ["linux/hci/gap.go: Dial, cancelDial", "linux/hci/hci.go: handleLEConnectionComplete"]}
{"id": "C173", "title": "What a central answers", "statement": "What a central sends in answer is the server's responses to some of the peripheral's requests, in their order, each once; to all of them as long as never ten requests wait; and when the client has no call of its own in flight there is a schedule that answers all that wait.", "quantifier": "every interleaving of the client's goroutines, the attachment of the database, the application's calls and the peer's requests", "why_tests_cant": "Ranges over all interleavings.", "anchors": ["linux/att/client.go: Loop, asyncReqLoop, sendResp", "linux/gatt/client.go: ClientWithServer"]}
{"id": "C174", "title": "Indications succeed no more often than the peer confirms", "statement": "Never have more indications of a connection succeeded than the peer has confirmed; until a first one times out, each that succeeded was itself confirmed and the peer has at most one to confirm; results come in the order of the calls; a waiting call succeeds when the reader gets to the confirmation behind requests and commands other than Exchange MTU.", "quantifier": "every interleaving of application goroutines writing to notifiers, the server's reader and main goroutine, peer requests, commands, confirmations and time-outs", "why_tests_cant": "Ranges over all interleavings.", "anchors": ["linux/att/server.go: indicate, Loop"]}
{"id": "C175", "title": "After a successful write the CCCD is that of the active subscriptions", "statement": "After any history of Subscribe, Unsubscribe and ClearSubscriptions calls, notifications and indications, the peer's CCCD of each characteristic whose last write did not fail holds exactly the bits of the active subscriptions.", "quantifier": "every history, including failing writes", "why_tests_cant": "Ranges over all histories.", "anchors": ["linux/gatt/client.go: Subscribe, Unsubscribe, setHandlers, ClearSubscriptions"]}
{"id": "C176", "title": "The reply of a command is the controller's answer to this command", "statement": "With a controller that answers every command once, in any order and as late as it likes, the reply with which a Send returns is the answer to the command of this very call, however many goroutines send commands at the same time.", "quantifier": "all interleavings of any number of calls of Send, their time-outs, the event loop and the controller's answers", "why_tests_cant": "Ranges over all interleavings; the wrong answer needs a time-out.", "anchors": ["linux/hci/hci.go: Send, send, handleCommandComplete, handleCommandStatus, opCodeLocker"]}
{"id": "C177", "title": "ReadRSSI returns the RSSI of its own connection", "statement": "The Read RSSI command names the connection. ReadRSSI returns nil exactly if the controller's reply is complete with status zero, and then the value in it, as a signed number; otherwise 127 and an error. The value is the one in the controller's answer to this command, so that of this connection.", "quantifier": "all handles, all replies, all interleavings of calls on any connections with other commands", "why_tests_cant": "Ranges over all interleavings and all replies.", "anchors": ["linux/hci/conn.go: ReadRSSI", "linux/att/client.go: ReadRSSI", "linux/gatt/client.go: ReadRSSI", "linux/hci/hci.go: Send, send"]}
{"id": "C178", "title": "Find By Type Value finds the services with a UUID", "statement": "A peer that asks for the attributes of a type with a value in a range of handles gets the handles and group ends of exactly those attributes, in order, as many as fit in the MTU, or Attribute Not Found if there are none; if it comes to an attribute of the type whose value the application computes it gets Invalid Handle. In particular a central that looks for a service by its UUID is told the handle range of every service with this UUID in the range. The server's state does not change.", "quantifier": "all attribute tables, all ranges, types, values and MTUs", "why_tests_cant": "Ranges over all tables and requests.", "anchors": ["linux/att/server.go: handleFindByTypeValueRequest, handleATT", "linux/att/db.go: DB.subrange"]}
{"id": "C179", "title": "Subscriptions between two devices of this library: values reach the subscribed handlers", "statement": "With a client and a server of this library on the two ends of a link: after any history of Subscribe, Unsubscribe and ClearSubscriptions for what the characteristics offer, and of values sent by the server's application, no call has failed or got stuck; for each characteristic the application has exactly one notifier running for each active subscription of the client and none for others; and the client's handlers have been called with exactly the values sent to them, in order, each cut to the MTU less three.", "quantifier": "all attribute tables, all histories of calls and values, all controller buffer sizes, MTUs and ways the radio cuts packets", "why_tests_cant": "Ranges over all histories at both ends and all ways a link can cut the packets.", "anchors": ["linux/gatt/client.go: Client.Subscribe, Client.Unsubscribe, Client.ClearSubscriptions, Client.setHandlers, Client.HandleNotification", "linux/att/db.go: newCCCD, NewDB", "linux/att/server.go: Server.notify, Server.indicate", "handler.go: notifier", "linux/hci/conn.go: Conn.Write, Conn.Read"]}
{"id": "C180", "title": "The host reveals its pairing nonce only after the peer has committed, and the nonce it committed to itself", "statement": "In every history of a connection, whatever the peer sends and the application does: the host sends a Pairing Random only in answer to a Pairing Confirm of 16 bytes, and it carries random bytes the host drew itself; if the host has sent a confirm value before (passkey entry, legacy pairing), the last one it sent commits to exactly the nonce it reveals.", "quantifier": "all histories of messages, calls of Pair and timeouts, all keys, nonces and addresses", "why_tests_cant": "Ranges over all histories of an adversarial peer.", "anchors": ["linux/hci/smp/handler.go: smpOnPairingConfirm, smpOnPairingRandom, continuePassKeyPairing", "linux/hci/smp/transport.go: sendPairingRandom, sendMConfirm", "linux/hci/smp/context.go: checkConfirm"]}
{"id": "C181", "title": "Numeric comparison protects against a man in the middle", "statement": "When both sides ask for protection and can show and confirm a number, pairing with numeric comparison completes only if the user confirmed that both sides show the same six digits, and a peer cannot choose its nonce after it has seen the host's, so that it cannot steer the digits.", "quantifier": "all pairings, all peers", "why_tests_cant": "Ranges over all behaviours of an adversarial peer.", "anchors": ["linux/hci/smp/handler.go: smpOnPairingConfirm, smpOnPairingRandom, continuePassKeyPairing", "linux/hci/smp/transport.go: sendPairingRandom, sendMConfirm", "linux/hci/smp/context.go: checkConfirm", "linux/hci/smp/crypto.go: smpG2"]}
{"id": "C182", "title": "Data given to a write handler stays the same", "statement": "The data of a request that a write handler received has the bytes the peer wrote for as long as the application keeps it, also after the handler has returned.", "quantifier": "every schedule, all sequences of PDUs, every server", "why_tests_cant": "Depends on the schedule of two goroutines and on what arrives after the handler has returned.", "anchors": ["linux/att/server.go: Server.Loop, handleATT", "handler.go: Request"]}
{"id": "C183", "title": "Data given to a write handler is intact until the next request is handled", "statement": "In every schedule, the data of a Write Request or Write Command that a write handler received has the bytes the peer wrote until the server hands the next request to a handler, also after the handler has returned and whatever arrives meanwhile.", "quantifier": "every schedule, all sequences of PDUs, every server", "why_tests_cant": "Depends on the schedule of two goroutines and on what arrives after the handler has returned.", "anchors": ["linux/att/server.go: Server.Loop, handleATT", "handler.go: Request"]}
{"id": "C184", "title": "What a Security Request of the peer does", "statement": "At any point of any pairing history, a Security Request that asks for bonding from a peer with a usable stored key makes the host start encryption with exactly that key, EDIV and Rand and do nothing else (with the short term key while a legacy pairing of this connection holds one); with an unusable legacy key nothing is sent; and a request from a peer without a stored key, or one that does not ask for bonding, is answered by one Pairing Request carrying the peer's AuthReq.", "quantifier": "every state of the pairing manager, every store content, every AuthReq octet and trailing bytes", "why_tests_cant": "The peer may send the request at any time, in any state; all stored bonds.", "anchors": ["linux/hci/smp/handler.go: smpOnSecurityRequest", "linux/hci/smp/manager.go: Encrypt", "linux/hci/conn.go: encrypt, stkEncrypt"]}
{"id": "C185", "title": "Data of a queued write given to a handler is intact until the next Prepare Write", "statement": "The data a write handler gets on an Execute Write are exactly the bytes prepared since the last Execute Write, and an application that keeps them sees these bytes, whatever else the peer sends, until it sends another Prepare Write.", "quantifier": "all sequences of PDUs, all attribute tables, every growth policy of the buffer", "why_tests_cant": "The data alias memory the server goes on using; depends on everything sent before and after.", "anchors": ["linux/att/server.go: handlePrepareWriteRequest, handleExecuteWriteRequest, handleATT", "handler.go: Request"]}
{"id": "C186", "title": "The encryption key has the negotiated size", "statement": "The key with which encryption is started after pairing is the key of the pairing reduced to the smaller of the two maximum key sizes in the Pairing Request and Response, and pairing with a peer that offers less than 7 octets fails.", "quantifier": "all keys, nonces, addresses, feature octets and cryptographic primitives", "why_tests_cant": "The property is about all size octets and all values of the cryptographic functions.", "anchors": ["linux/hci/smp/handler.go: smpOnPairingResponse, smpOnDHKeyCheck", "linux/hci/smp/manager.go: Encrypt"]}
{"id": "C187", "title": "ServiceData lists all service data of an advertisement", "statement": "For every accepted advertisement ServiceData() lists the data of each service data record with its UUID, and nothing else.", "quantifier": "all accepted packets, all records, all UUIDs", "why_tests_cant": "The property ranges over all byte strings the parser accepts.", "anchors": ["linux/adv/packet.go: ServiceData", "parser/parser.go: Parse", "uuid.go: Parse"]}
{"id": "C188", "title": "A connection is not closed because of an earlier connection", "statement": "Disconnected() of a connection fires only because of that connection: a Disconnection Complete event of the controller for it, Close called on it, the end of the HCI, or data of its own peer that is not L2CAP; never because of something that happened on an earlier connection.", "quantifier": "all histories of connections, received packets and closings, all interleavings with the connections' reading goroutines", "why_tests_cant": "Depends on when the reading goroutine of an ended connection runs and on the controller reusing handles.", "anchors": ["linux/hci/conn.go: newConn, recombine, Close", "linux/hci/hci.go: cleanupConnectionHandle, handleDisconnectionComplete, handleLEConnectionComplete"]}
{"id": "C189", "title": "Data written on a connection reach only its peer", "statement": "Whatever is written on a connection is sent to the device this connection was made with, or to nobody; never to another device.", "quantifier": "all histories of links made and lost, closings, writes, and all delays of the controller's events", "why_tests_cant": "Depends on when the controller gives a handle to a new link relative to events on their way and to Close.", "anchors": ["linux/hci/conn.go: writePDU, Close", "linux/hci/hci.go: handleLEConnectionComplete, handleDisconnectionComplete, cleanupConnectionHandle"]}
{"id": "C190", "title": "Writes go over the connection's link while it exists, and nowhere after Disconnected()", "statement": "As long as the link of a connection exists, everything written on the connection is sent over this link, whatever handles were used before. Once Disconnected() has fired for a connection nothing written on it is sent to anyone.", "quantifier": "all histories of links made and lost, closings, writes, and all delays of the controller's events", "why_tests_cant": "Quantifies over all interleavings of controller, event loop and callers.", "anchors": ["linux/hci/conn.go: writePDU, Close", "linux/hci/hci.go: handleLEConnectionComplete, handleDisconnectionComplete, cleanupConnectionHandle"]}
{"id": "C191", "title": "Data received on a connection come from its peer, whole and in order", "statement": "What is received on a connection is what its own peer sent over its link, in order and from the first packet on, never data of another device; and until Disconnected() fires nothing the peer sent is lost, even if the link has ended and its handle has been given to another link.", "quantifier": "all histories of links made and lost, packets of the peers, closings, and all delays of the controller's events and data", "why_tests_cant": "Depends on handles being used again while events and data wait to be handled.", "anchors": ["linux/hci/hci.go: handleACL, handleLEConnectionComplete, handleDisconnectionComplete, cleanupConnectionHandle", "linux/hci/conn.go: Close"]}
{"id": "C192", "title": "Disconnected() tells the truth", "statement": "Once the host has handled all events of the controller and no Close is under way, Disconnected() has fired exactly for the connections whose links are gone.", "quantifier": "all histories of links made and lost, packets, closings, and all delays of the controller's events", "why_tests_cant": "Depends on the order of Close, events and reuse of handles.", "anchors": ["linux/hci/conn.go: Close, Disconnected", "linux/hci/hci.go: handleLEConnectionComplete, handleDisconnectionComplete, cleanupConnectionHandle"]}
{"id": "C193", "title": "Close ends the connection's own link only", "statement": "Close of a connection ends the link of this connection, if it still exists, and no other link.", "quantifier": "all histories of links made and lost, closings, and all delays of the controller's events", "why_tests_cant": "Depends on handles being used again while events wait.", "anchors": ["linux/hci/conn.go: Close, Disconnected", "linux/hci/hci.go: handleLEConnectionComplete, handleDisconnectionComplete, cleanupConnectionHandle"]}
{"id": "C194", "title": "Concurrent use of a device's profile cache is linearizable, also across crashes", "statement": "Store, Load and Clear calls made at the same time through one device's cache behave as if they were made one after the other, in an order that agrees with real time; a call interrupted by a crash counts as not made or as one whose write failed part-way; every call that is not interrupted returns.", "quantifier": "all sets of calls, all interleavings, all contents of the file, all file system failures, all crash points", "why_tests_cant": "Depends on how the calls interleave and where the process stops.", "anchors": ["cache/cache.go: Store, Load, Clear, loadExisting, storeCache", "linux/hci/option.go: SetGattCacheFile", "linux/gatt/client.go: DiscoverProfile"]}
{"id": "C195", "title": "Devices that share a cache file do not lose profiles", "statement": "Devices given the same cache file can store profiles at the same time, and every profile stored with success is kept.", "quantifier": "all sets of calls on any number of devices, all interleavings, file system failures and crash points", "why_tests_cant": "Depends on how the calls of different devices interleave.", "anchors": ["cache/cache.go: Store, Load, Clear, loadExisting, storeCache", "linux/hci/option.go: SetGattCacheFile", "linux/gatt/client.go: DiscoverProfile"]}
{"id": "C196", "title": "Concurrent use of a bond manager is linearizable, also with failures and crashes", "statement": "Exists, Find, Save and Delete calls made at the same time on one bond manager behave as if they were made one after the other, in an order that agrees with real time, whatever the file system refuses and wherever the process crashes; a bond that Find returns was saved for this address and is the last one; a bond that Save stored stays until it is replaced or deleted or a later write is interrupted; every call that is not interrupted returns.", "quantifier": "all sets of calls that save non-empty keys, all earlier histories, all interleavings, file system failures and crash points", "why_tests_cant": "Depends on how the calls interleave, what fails and where the process stops.", "anchors": ["linux/hci/bond/manager.go: Exists, Find, Save, Delete, loadBonds, storeBonds, NewBondManager"]}
{"id": "C197", "title": "Bond managers that share a file do not lose bonds", "statement": "Programs or devices that use separate bond managers for the same file (such as the default bonds.json) can save bonds at the same time, and every bond saved with success is kept.", "quantifier": "all sets of calls on any number of managers, all interleavings, file system failures and crash points", "why_tests_cant": "Depends on how the calls of different managers interleave.", "anchors": ["linux/hci/bond/manager.go: Exists, Find, Save, Delete, loadBonds, storeBonds, NewBondManager"]}
{"id": "C198", "title": "ConnectionHandle tells connections apart", "statement": "Two connections in use at the same time have different values of ConnectionHandle().", "quantifier": "all histories of packets, closings and failures, all handles the controller assigns", "why_tests_cant": "Depends on which handles the controller picks in which history.", "anchors": ["linux/hci/conn.go: ConnectionHandle", "linux/gatt/client.go: ConnectionHandle", "linux/hci/hci.go: handleLEConnectionComplete, cleanupConnectionHandle"]}
{"id": "C199", "title": "The tables of the library are safe for concurrent use", "statement": "Whatever functions of the library are called from whatever goroutines, no two goroutines ever use one of its tables (commands in progress, connections, opcode locks, signalling requests, credit-based channels, subscriptions, the file of the profile cache) at the same time with one of them changing it, so the Go runtime never ends the process because of that.", "quantifier": "all programs: any number of goroutines that call any functions of the library in any order, for any clients, connections and opcodes; all interleavings", "why_tests_cant": "Depends on every interleaving of any number of goroutines; a race detector sees the interleavings that happened.", "anchors": ["linux/hci/hci.go: send, handleACL, cleanupConnectionHandle, handleNumberOfCompletedPackets, LockOpCode", "linux/hci/conn.go: writePDU, Close", "linux/hci/coc.go", "linux/hci/signal.go", "linux/hci/gap.go", "linux/gatt/client.go", "linux/gatt/server.go", "cache/cache.go", "linux/hci/bond/manager.go", "linux/hci/socket/socket.go"]}
{"id": "C200", "title": "The library has no data races", "statement": "Whatever functions of the library are called from whatever goroutines, no two goroutines ever use a variable of the library at the same time with one of them writing it.", "quantifier": "all programs: any number of goroutines that call any functions of the library in any order, for any clients, connections and opcodes; all interleavings", "why_tests_cant": "Depends on every interleaving of any number of goroutines; a race detector sees the interleavings that happened.", "anchors": ["linux/hci/hci.go: send, handleACL, cleanupConnectionHandle, handleNumberOfCompletedPackets, LockOpCode", "linux/hci/conn.go: writePDU, Close", "linux/hci/coc.go", "linux/hci/signal.go", "linux/hci/gap.go", "linux/gatt/client.go", "linux/gatt/server.go", "cache/cache.go", "linux/hci/bond/manager.go", "linux/hci/socket/socket.go"]}
{"id": "C201", "title": "Goroutines never wait for each other's mutexes for ever", "statement": "Whatever functions of the library are called from whatever goroutines: whenever a goroutine waits for a mutex of the library, some goroutine that holds one waits for none, so there is no cycle of goroutines waiting for each other's mutexes; a mutex is unlocked only by a goroutine that has locked it; a finished call holds none; two goroutines never hold the same mutex.", "quantifier": "all programs: any number of goroutines that call any functions of the library in any order, for any clients, connections and opcodes; all interleavings", "why_tests_cant": "Depends on every interleaving of any number of goroutines; a race detector sees the interleavings that happened.", "anchors": ["linux/hci/hci.go: send, handleACL, cleanupConnectionHandle, handleNumberOfCompletedPackets, LockOpCode", "linux/hci/conn.go: writePDU, Close", "linux/hci/coc.go", "linux/hci/signal.go", "linux/hci/gap.go", "linux/gatt/client.go", "linux/gatt/server.go", "cache/cache.go", "linux/hci/bond/manager.go", "linux/hci/socket/socket.go"]}
{"id": "C202", "title": "A disconnection while data are written does not stop the adapter", "statement": "Whatever connections are writing when a connection is lost or closed, its clean-up ends, the write on it returns, and the adapter goes on handling the controller's events.", "quantifier": "all histories of connections, writes, completions, disconnections and closes; all numbers of buffers; all interleavings", "why_tests_cant": "The hang needs the loss to fall in the time in which a write waits for a buffer.", "anchors": ["linux/hci/conn.go: writePDU, Close", "linux/hci/hci.go: cleanupConnectionHandle, handleDisconnectionComplete, handleNumberOfCompletedPackets", "linux/hci/buffer.go: Get, PutAll"]}
{"id": "C203", "title": "A credit-based channel object acts only on its own channel", "statement": "The object that opening a credit-based channel returns describes and acts on that channel only: Info gives its identifiers and sizes, Send uses its credits, Subscribe, Unsubscribe and Close change it and no other channel, and once it is closed they fail.", "quantifier": "all histories of openings (answered in any order, with any identifiers the peer chooses), closes, sends, credit grants and subscriptions", "why_tests_cant": "The mistake needs a peer that uses a channel identifier again, and a call on an object that was closed.", "anchors": ["linux/hci/coc.go: newCocWrapper, Send, Subscribe, Unsubscribe, Close, Info, Open, addChannel, CloseChannel"]}
{"id": "C204", "title": "No MTU negotiation makes a client call crash", "statement": "On a dialled connection, whatever MTU exchanges the application and the peer make and in whatever order, no later read, write, discovery or MTU exchange crashes the program: a request that the MTU in force allows can be sent.", "quantifier": "all histories of client calls with any arguments and any answers, interleaved with MTU requests of the peer", "why_tests_cant": "The crash needs an MTU request of the peer on a connection the local side dialled, and a long write later.", "anchors": ["linux/att/client.go: ExchangeMTU, Write, WriteCommand, PrepareWrite, SignedWrite, ReadMultiple, NewClient, WithServer", "linux/att/server.go: handleExchangeMTURequest", "linux/hci/conn.go: TxMTU, SetTxMTU"]}
{"id": "C205", "title": "The goroutines of a dialled connection end with it", "statement": "When a dialled connection ends, every goroutine the library has started for it ends by itself and every call that waits returns, whatever the peer sent before and in whatever order the goroutines run, provided the application's handlers return.", "quantifier": "all histories of packets, calls and steps of the five goroutines, the end of the connection at any point, all schedules after it", "why_tests_cant": "A leaked goroutine shows up only in a program that has run for long, and whether it leaks depends on the packets that are queued when the link is lost.", "anchors": ["linux/att/client.go: NewClient, Loop, asyncReqLoop, sendReq, sendResp", "linux/hci/conn.go: newConn, recombine, Read", "linux/hci/hci.go: handleDisconnectionComplete"]}
{"id": "C206", "title": "The goroutines of an accepted connection end with it, after everything received is handled", "statement": "Requests of a central are handled once each and in the order received. When its connection ends, at any point, every request that was received before is still handled, then every goroutine the library has started for the connection ends by itself, the notifiers of the connection are closed and every indication that waits returns, whatever the central sent and in whatever order the goroutines run, provided the application's handlers return.", "quantifier": "all histories of packets, indications and steps of the three goroutines, the end of the connection at any point, all schedules after it", "why_tests_cant": "Which packets are queued where at the moment the link is lost depends on the schedule.", "anchors": ["linux/att/server.go: Loop, indicate", "linux/device.go: loop", "linux/hci/conn.go: newConn, recombine, Read", "linux/hci/hci.go: cleanupConnectionHandle"]}
{"id": "C207", "title": "A failed DiscoverProfile leaves nothing false", "statement": "When a request of DiscoverProfile fails, at any point, what the client then keeps as its profile (and returns as a success from the next call without force) says nothing false about the server: its services are the first ones of the server, the characteristics of each the first ones of that service, the descriptors of each the first ones of that characteristic, all with their UUIDs, handles, properties and ranges.", "quantifier": "all service tables, all MTUs, all points and patterns of failure", "why_tests_cant": "The request that fails may be any of hundreds, and each leaves a different profile.", "anchors": ["linux/gatt/client.go: DiscoverProfile, DiscoverServices, DiscoverCharacteristics, DiscoverDescriptors"]}
{"id": "C208", "title": "What a client has discovered is true, whatever calls it made and whichever failed", "statement": "After any history of DiscoverServices, DiscoverCharacteristics, DiscoverDescriptors and DiscoverProfile, with any filters, in any order, repeated, with any requests failing: every service the client has is one of the server, with its range; every characteristic it has for a service is one of that service, with its handles, properties and range; every descriptor it has for a characteristic, and its CCCD, is one of that characteristic. A call that succeeds has found everything it looked for.", "quantifier": "all service tables, MTUs, histories of calls with all filters, all patterns of failing requests", "why_tests_cant": "The histories of calls and failures are unbounded, and each leaves other partial results behind.", "anchors": ["linux/gatt/client.go: DiscoverProfile, DiscoverServices, DiscoverCharacteristics, DiscoverDescriptors"]}
{"id": "C209", "title": "A connection's encryption state is that of its own link, also when handles are used again", "statement": "What a connection reports about encryption, and whether it takes itself to be encrypted, is what the controller reported about the link of this connection, in order from the first report on, never a report about another device, however late the host handles the events and whichever handles are used again. Until Disconnected() fires no report is lost, so when no event waits the connection is taken to be encrypted exactly if its link is. A new connection starts unencrypted.", "quantifier": "all histories of links made and lost, closings, writes, commands and encryption reports, and all delays of the controller's events", "why_tests_cant": "The reuse of a handle while events about its former owner wait depends on timing and on the controller.", "anchors": ["linux/hci/hci.go: handleEncryptionChange, handleLEConnectionComplete, cleanupConnectionHandle", "linux/hci/conn.go: handleEncryptionChanged"]}
{"id": "C210", "title": "Commands made on a connection concern its own peer", "statement": "The commands that ReadRSSI and StartEncryption of a connection make, and those that the library makes because of a Connection Parameter Update Request of the connection's peer, are carried out by the controller for the link of this connection, or refused; never for the link with another device.", "quantifier": "all histories of links made and lost, closings, writes, commands and encryption reports, and all delays of the controller's events", "why_tests_cant": "It must hold for connections that ended long ago, whichever device has their handle now.", "anchors": ["linux/hci/conn.go: ReadRSSI, StartEncryption, encrypt, stkEncrypt", "linux/hci/signal.go: handleConnectionParameterUpdateRequest"]}
{"id": "C211", "title": "Requests in fragments are handled once complete, and the goroutines of the connection end", "statement": "Requests that a central sends in any number of packets, between PDUs of other channels, are handled once each, in order, and only when all their packets were received. When the connection ends, also in the middle of a request, every request received completely before is still handled, and every goroutine the library has started for the connection ends by itself.", "quantifier": "all histories of packets, each with any division of PDUs into packets, indications, steps of the three goroutines, the end of the connection at any point, all schedules after it", "why_tests_cant": "Where in a PDU the link is lost, and which packets are queued where, depends on the schedule.", "anchors": ["linux/hci/conn.go: recombine, newConn, Read", "linux/att/server.go: Loop, indicate", "linux/device.go: loop"]}
{"id": "C212", "title": "The goroutines of a dialled connection end with it, with PDUs in any number of packets", "statement": "When a dialled connection ends, also in the middle of a PDU, or because the peer sent a PDU longer than it may or interrupted one, every goroutine the library has started for it ends by itself and every call that waits returns, however the peer has divided its PDUs into packets and whatever it sent on other channels.", "quantifier": "all histories of packets, each with any division of PDUs into packets, calls and steps of the five goroutines, the end of the connection at any point, all schedules after it", "why_tests_cant": "Where in a PDU the link is lost, and which packets are queued where, depends on the schedule.", "anchors": ["linux/hci/conn.go: recombine, newConn, Read", "linux/att/client.go: NewClient, Loop, asyncReqLoop, sendReq, sendResp"]}
{"id": "C213", "title": "What a central sends is handled octet for octet, whatever the packets, and then everything ends", "statement": "The server handles exactly the ATT PDUs a central has sent completely, confirmations apart, once each, octet for octet and in order, however its and our controller divide frames into packets and whatever is sent on other channels between them; when the connection has ended and this is done, all goroutines of the connection have ended.", "quantifier": "all sequences of frames of any channels, all divisions into packets, all contents, any receiving MPS, all schedules of the goroutines and of indications, the end of the connection at any point", "why_tests_cant": "Sizes, divisions, contents and schedules combine.", "anchors": ["linux/hci/conn.go: recombine, newConn, Read", "linux/att/server.go: Loop, indicate"]}
{"id": "C214", "title": "The answers on a connection are those of the database to the requests in order, whatever the packets and the schedule", "statement": "What the server writes in answer on a connection, and what it leaves in the application's attributes, is exactly what the attribute database gives and becomes when the ATT PDUs the central has sent are handled one after the other, however the frames were divided into packets, whatever else was sent between them, in whatever order the goroutines run and whenever the connection ends.", "quantifier": "all databases and handlers, all sequences of frames of any channels, all divisions into packets, all contents, all schedules of the goroutines and of indications, the end of the connection at any point", "why_tests_cant": "Contents, divisions and schedules combine.", "anchors": ["linux/att/server.go: Loop, handleRequest", "linux/hci/conn.go: recombine, Read"]}
