import Verif.Locks.Model
set_option autoImplicit false

/-!
# What the functions of the library do with mutexes and shared variables

One definition per function of linux/ and cache/ that uses a mutex or one of the variables of `Var`; functions that only call these are given by `library` as a whole (a goroutine may call them in any order). Deferred
calls are written where they run. Loops whose number of rounds does not matter are `star`, branches `alt`; so more sequences are allowed than the code has. A function that sends commands of two opcodes is given in parts, one for each, which a goroutine may run one after the other. `go f()` starts another goroutine: it is not part of the
function.

A variable that only one goroutine uses is not shared: the maps of an ATT server (`cccs`, `nn`, `in`, att/server.go:16-18) are used by the goroutine in `Loop` only (or, for the server of a central, by the client's `Loop`),
the tables of event handlers (hci.go:146-161) are written by `Init` before it starts goroutines.
-/

namespace Ble.Locks

def L (m : Mutex) : Prog := .act (.lock m)
def U (m : Mutex) : Prog := .act (.unlock m)
def RL (m : Mutex) : Prog := .act (.rlock m)
def RU (m : Mutex) : Prog := .act (.runlock m)
def R (v : Var) : Prog := .act (.read v)
def W (v : Var) : Prog := .act (.write v)
/-- Anything else. -/
def O : Prog := .act .other

/-- One after the other. -/
def all : List Prog → Prog
  | [] => .nil
  | [p] => p
  | p :: ps => .seq p (all ps)

def opt (p : Prog) : Prog := .alt .nil p

/-! ## The transport -/

/-- `Read`: socket/socket.go:141-173, h4/h4.go:116-143. -/
def sktRead : Prog := opt (all [L .sktRead, O, U .sktRead])
/-- `Write`: socket/socket.go:175-185, h4/h4.go:145-155. -/
def sktWrite : Prog := opt (all [L .sktWrite, O, U .sktWrite])
/-- `Close`: socket/socket.go:187-205, h4/h4.go:157-175. -/
def sktClose : Prog := all [L .sktClose, opt (all [O, L .sktRead, O, U .sktRead]), U .sktClose]

/-! ## Commands -/

/-- `LockOpCode`: hci.go:1037-1054. -/
def lockOpCode : Prog := all [L .opcodes, R .opcodes, opt (W .opcodes), U .opcodes, L .opcode]
/-- `UnlockOpCode`: hci.go:1056-1071. -/
def unlockOpCode : Prog := all [L .opcodes, R .opcodes, U .opcode, U .opcodes]
/-- `close`: hci.go:520-523. -/
def hciSocketClose : Prog := all [W .err, sktClose]
/-- `send`: hci.go:356-442. `params` are the shared variables that `Marshal` reads. Marshalling does not fail (C47; see `sendUnmarshallable`). -/
def send (params : Prog) : Prog :=
  all [R .err, lockOpCode, params, O,
    .alt
      /- no buffer -/
      .nil
      (all [L .sent, W .sent, U .sent,
        .alt
          /- closed: hci.go:407-408 -/
          .nil
          (all [sktWrite, opt hciSocketClose, O, opt (R .err), L .sent, W .sent, U .sent])]),
    unlockOpCode]
/-- `send` of a command that cannot be marshalled: hci.go:384-387 unlocks a mutex that it has not locked. -/
def sendUnmarshallable : Prog := all [R .err, lockOpCode, O, U .sent, unlockOpCode]
/-- `handleCommandComplete`, `handleCommandStatus`, `handleVendorEvent`: hci.go:738-788, 987-1008. -/
def commandReply : Prog := all [O, opt (all [L .sent, R .sent, U .sent, O])]

/-! ## The device and its connections -/

/-- `Close`: hci.go:226-239. -/
def hciClose : Prog := all [L .closing, O, U .closing]
/-- `cleanupConnectionHandle`: hci.go:851-894. -/
def cleanupConnectionHandle : Prog :=
  all [L .conns, R .conns,
    opt (all [W .conns, .alt (all [RL .params, R .advEnable, RU .params]) O, O, L .pool, O, U .pool]),
    U .conns]
/-- `cleanup`: hci.go:195-223. -/
def cleanup : Prog :=
  all [hciSocketClose, O, W .masterConn, L .conns, R .conns, U .conns, .star cleanupConnectionHandle, L .sent, .star (all [R .sent, W .sent]), U .sent]
/-- `handleACL`: hci.go:549-562. -/
def handleACL : Prog := all [L .conns, R .conns, O, U .conns]
/-- `handleLEConnectionComplete`: hci.go:790-840. -/
def connectionComplete : Prog :=
  all [O, opt (all [L .conns, W .conns, U .conns, .alt (all [R .masterConn, O]) (all [O, RL .params, R .advEnable, RU .params])])]
/-- `handleDisconnectionComplete`: hci.go:896-910. -/
def disconnectionComplete : Prog := opt cleanupConnectionHandle
/-- `handleNumberOfCompletedPackets`: hci.go:937-954. -/
def completedPackets : Prog := all [L .conns, .star (all [R .conns, O]), U .conns]
/-- `handleEncryptionChange`, `handleEncryptionKeyRefreshComplete`, `findConnection`: hci.go:912-935, 1021-1030. -/
def encryptionChange : Prog := all [L .conns, R .conns, U .conns, O]
/-- `handleLEAdvertisingReport`: hci.go:602-737. -/
def advertisingReport : Prog := all [R .advHandler, .star (all [O, opt (all [R .adHist, opt (W .adHist)]), R .advHandler, O])]
/-- `sktReadLoop`: hci.go:473-518. -/
def readLoop : Prog := all [.star (all [sktRead, O]), opt (W .err), O]
/-- `sktProcessLoop`: hci.go:444-471, with the handlers above. -/
def processLoop : Prog :=
  all [R .err,
    .star (all [O, .alt handleACL (.alt commandReply (.alt connectionComplete (.alt disconnectionComplete (.alt completedPackets (.alt encryptionChange advertisingReport)))))]),
    W .err, O, cleanup]
/-- `Conn.Close`: conn.go:515-529. -/
def connClose : Prog := opt (all [send .nil, cleanupConnectionHandle])
/-- `writePDU`: conn.go:328-391. -/
def writePDU : Prog := all [L .pool, .star (all [O, opt sktWrite]), U .pool]

/-! ## Advertising, scanning, dialling -/

/-- `SetAdvHandler`, `Scan`, `StopScanning`: gap.go:22-44. -/
def setAdvHandler : Prog := W .advHandler
def scan : Prog := all [W .scanEnable, W .adHist, send (R .scanEnable)]
def stopScanning : Prog := all [W .scanEnable, send (R .scanEnable)]
/-- `Advertise`, `StopAdvertising`, `SetAdvertisement`: gap.go:178-181, 271-299; those that send two commands in two parts. -/
def advertise1 : Prog := send .nil
def advertise2 : Prog := all [W .advEnable, send (R .advEnable)]
def stopAdvertising : Prog := all [W .advEnable, send (R .advEnable)]
def setAdvertisement1 : Prog := all [W .advData, send (R .advData)]
def setAdvertisement2 : Prog := all [W .scanRsp, send (R .scanRsp)]
/-- `go h.Send(&h.params.advEnable, nil)`: hci.go:834, 870. -/
def restartAdvertising : Prog := send (R .advEnable)
/-- `Accept`: gap.go:184-197. -/
def accept : Prog := all [O, opt (R .err)]
/-- `HCI.Dial` and `cancelDial`: gap.go:200-268, and `Device.Dial`: device.go:247-266, in three parts. -/
def dial1 : Prog := all [W .connParams, R .connParams, send (R .connParams), opt (all [R .masterConn, O, opt (R .err)])]
def dial2 : Prog := all [send .nil, opt (R .masterConn), O]
def dial3 : Prog := all [R .services, opt (R .services)]

/-! ## Signalling and credit-based channels -/

/-- `Signal` without and with a response: signal.go:26-113. -/
def signal : Prog := all [W .sigId, O, R .sigId, writePDU]
def signalRequest : Prog :=
  all [W .sigId, O, R .sigId, L .sig, W .sigRsp, U .sig, R .sigId, writePDU, O, opt (R .sigId), L .sig, W .sigRsp, U .sig]
/-- `handleSignal`: signal.go:138-196, with `sendResponse`: signal.go:115-135. A response takes the last branch; `rxc <- s` has room, see C130. -/
def handleSignal : Prog :=
  .alt writePDU (.star (.alt (opt writePDU) (.alt (all [send .nil, writePDU]) (.alt (all [L .coc, R .channels, opt (W .channels), U .coc])
    (all [L .sig, R .sigRsp, opt (all [O, W .sigRsp]), U .sig, opt writePDU])))))
/-- `NextSourceCID`: coc.go:51-67. -/
def nextSourceCID : Prog := all [L .coc, R .nextCid, opt (W .nextCid), U .coc]
/-- `addChannel`: coc.go:103-121. -/
def addChannel : Prog := all [L .coc, R .channels, opt (W .channels), U .coc]
/-- `Open`: coc.go:69-101. -/
def cocOpen : Prog := all [nextSourceCID, opt (all [signalRequest, opt addChannel])]
/-- `CloseChannel`: coc.go:123-138. -/
def closeChannel : Prog := all [L .coc, R .channels, opt (all [O, W .channels]), U .coc]
/-- `Subscribe`, `Unsubscribe`: coc.go:150-185. -/
def cocSubscribe : Prog := all [L .coc, R .channels, opt (all [O, W .channels]), U .coc]
/-- `Info`: coc.go:187-197. -/
def cocInfo : Prog := all [RL .coc, R .channels, RU .coc]
/-- `IncrementCredits`, `DecrementCredits`: coc.go:199-233. -/
def modifyCredits : Prog := all [L .coc, R .channels, opt (W .channels), U .coc]
/-- `recieve`: coc.go:235-294. The deferred `returnCredit` runs before the deferred `Unlock`. -/
def cocReceive : Prog := all [L .coc, R .channels, opt (all [O, opt (R .channels), signal]), U .coc]
/-- `send`: coc.go:305-384. -/
def cocSend : Prog := all [cocInfo, .star (all [O, .star (all [modifyCredits, O]), opt writePDU])]
/-- The goroutine that recombines packets: conn.go:125-145, 394-502. -/
def recombineLoop : Prog := all [.star (all [O, opt (.alt handleSignal cocReceive)]), opt cleanupConnectionHandle]

/-! ## The GATT client, with the ATT client below it -/

/-- `Addr`, `Name`, `Profile`: gatt/client.go:65-83. -/
def accessor : Prog := all [RL .client, opt (R .profile), RU .client]
/-- An exchange of the ATT client: att/client.go (`sendReq`, `sendCmd`). -/
def exchange : Prog := all [O, opt writePDU, O]
/-- `DiscoverServices`: gatt/client.go:137-177. -/
def discoverServices : Prog := all [L .client, R .profile, opt (W .profile), .star (all [exchange, opt (W .profile)]), R .profile, U .client]
/-- `DiscoverIncludedServices`, `DiscoverCharacteristics`, `DiscoverDescriptors`, the reading and writing calls and `ExchangeMTU`: gatt/client.go:179-342. -/
def requests : Prog := all [L .client, .star exchange, U .client]
/-- `ReadRSSI`: gatt/client.go:328-333. -/
def readRSSI : Prog := all [L .client, send .nil, U .client]
/-- `Subscribe`, `Unsubscribe` with `setHandlers`: gatt/client.go:345-403. -/
def subscribe : Prog := all [L .client, opt (all [R .subs, opt (W .subs), opt (all [W .subs, exchange, opt (W .subs)])]), U .client]
/-- `ClearSubscriptions`: gatt/client.go:406-417. -/
def clearSubscriptions : Prog := all [L .client, .star (all [R .subs, exchange, opt (W .subs)]), U .client]
/-- `CancelConnection`: gatt/client.go:420-424. -/
def cancelConnection : Prog := all [L .client, connClose, U .client]
/-- `Disconnected`: gatt/client.go:427-431. -/
def disconnected : Prog := all [L .client, O, U .client]
/-- `HandleNotification`: gatt/client.go:439-468; the handler is `O`. -/
def handleNotification : Prog := all [L .client, R .subs, opt O, U .client]
/-- `DiscoverProfile`: gatt/client.go:86-110. -/
def discoverProfile : Prog := all [R .profile, opt (all [discoverServices, .star requests, opt (all [W .profile, R .profile])])]
/-- `DiscoverAndCacheProfile`: gatt/client.go:112-134, with `Load` and `Store` of the cache: cache/cache.go:25-64. -/
def cacheLoad : Prog := all [RL .cache, R .cacheFile, RU .cache]
def cacheStore : Prog := all [L .cache, R .cacheFile, opt (W .cacheFile), U .cache]
def discoverAndCacheProfile : Prog := all [opt (all [accessor, cacheLoad, opt (W .profile)]), opt (all [discoverProfile, opt (all [accessor, cacheStore])])]
/-- `Clear` of the cache: cache/cache.go:66-75. -/
def cacheClear : Prog := all [L .cache, W .cacheFile, U .cache]
/-- `Loop` of the ATT client: att/client.go, which hands notifications to `HandleNotification` and writes confirmations and the server's answers. -/
def clientLoop : Prog := .star (all [O, opt (.alt handleNotification writePDU)])

/-! ## Services, and bonds -/

/-- `AddService`, `RemoveAllServices`, `SetServices`: gatt/server.go:42-68. -/
def setServices : Prog := all [L .server, R .services, W .services, U .server]
/-- `loop`: device.go:52-90. -/
def acceptLoop : Prog := .star (all [accept, opt (all [O, L .server, R .services, O, U .server])])
/-- The ATT server of a connection: att/server.go:108-177. -/
def serverLoop : Prog := .star (all [O, opt writePDU])
/-- `Exists`, `Find`, `Save`, `Delete` of the bond manager: bond/manager.go:44-149, with `loadBonds` and `storeBonds`: 152-199. `Find` may write the file (86-92), `loadBonds` may create it (153-160). -/
def bondExists : Prog := opt (all [RL .bond, opt (W .bondFile), R .bondFile, RU .bond])
def bondFind : Prog := opt (all [RL .bond, opt (W .bondFile), R .bondFile, opt (W .bondFile), RU .bond])
def bondSave : Prog := opt (all [L .bond, opt (W .bondFile), R .bondFile, opt (W .bondFile), U .bond])
/-- `StartEncryption` and `Pair`: smp/manager.go:107-149, and what the security manager does for a message: smp/handler.go. -/
def startEncryption : Prog := all [bondFind, opt (send .nil)]
def handleSecurity : Prog := all [O, .star (.alt writePDU (.alt bondSave (send .nil)))]

/-- The functions that goroutines run, those of the library itself and those that the application calls. -/
def library : List Prog :=
  [sktClose, send .nil, hciClose, readLoop, processLoop, connClose, writePDU, setAdvHandler, scan, stopScanning, advertise1, advertise2, stopAdvertising, setAdvertisement1, setAdvertisement2, restartAdvertising, accept, dial1, dial2, dial3, signal, signalRequest, cocOpen,
   closeChannel, cocSubscribe, cocInfo, cocSend, recombineLoop, accessor, discoverServices, requests, readRSSI, subscribe, clearSubscriptions, cancelConnection, disconnected, discoverProfile, discoverAndCacheProfile, cacheLoad,
   cacheStore, cacheClear, clientLoop, setServices, acceptLoop, serverLoop, bondExists, bondFind, bondSave, startEncryption, handleSecurity]

/-- What one goroutine may do: any functions of the library, one after the other, each for its own subject. -/
inductive Runs : List Step → Prop where
  | nil : Runs []
  | call {p : Prog} {as : List (Act Mutex Var)} {bs : List Step} (o : Subject) : p ∈ library → p.Path as → Runs bs → Runs (as.map (Act.on o) ++ bs)

/-- A program: goroutines that run functions of the library. -/
def Program (s : St) : Prop := ∀ t ∈ s, t.held = [] ∧ Runs t.todo

end Ble.Locks
