import Verif.Hci.EvtGet
set_option autoImplicit false

/-!
# The event types of linux/hci/evt/evt_gen.go

Generated by tools/gen_evt.py from the Go source: for each type the constants with its event and subevent code and all its methods: the getters with their type and offset, and the bound of `Valid` where there is one.
-/

namespace Ble.EvtGen

/-- Every type of evt_gen.go, with all its methods. -/
def evts : List Evt :=
  [ { name := "DisconnectionComplete", code := 0x05, sub := none, valid := none, fields := [⟨"Status", .u8, 0⟩, ⟨"ConnectionHandle", .u16, 1⟩, ⟨"Reason", .u8, 3⟩] }, -- evt_gen.go:8-14
    { name := "EncryptionChange", code := 0x08, sub := none, valid := none, fields := [⟨"Status", .u8, 0⟩, ⟨"ConnectionHandle", .u16, 1⟩, ⟨"EncryptionEnabled", .u8, 3⟩] }, -- evt_gen.go:19-25
    { name := "ReadRemoteVersionInformationComplete", code := 0x0C, sub := none, valid := none, fields := [⟨"Status", .u8, 0⟩, ⟨"ConnectionHandle", .u16, 1⟩, ⟨"Version", .u8, 3⟩, ⟨"ManufacturerName", .u16, 4⟩, ⟨"Subversion", .u16, 6⟩] }, -- evt_gen.go:30-46
    { name := "CommandComplete", code := 0x0E, sub := none, valid := none, fields := [] }, -- evt_gen.go:51-51
    { name := "CommandStatus", code := 0x0F, sub := none, valid := some 4, fields := [⟨"Status", .u8, 0⟩, ⟨"NumHCICommandPackets", .u8, 1⟩, ⟨"CommandOpcode", .u16, 2⟩] }, -- evt_gen.go:56-64
    { name := "HardwareError", code := 0x10, sub := none, valid := none, fields := [⟨"HardwareCode", .u8, 0⟩] }, -- evt_gen.go:69-71
    { name := "NumberOfCompletedPackets", code := 0x13, sub := none, valid := none, fields := [] }, -- evt_gen.go:76-76
    { name := "DataBufferOverflow", code := 0x1A, sub := none, valid := none, fields := [⟨"LinkType", .u8, 0⟩] }, -- evt_gen.go:81-83
    { name := "EncryptionKeyRefreshComplete", code := 0x30, sub := none, valid := none, fields := [⟨"Status", .u8, 0⟩, ⟨"ConnectionHandle", .u16, 1⟩] }, -- evt_gen.go:88-94
    { name := "LEConnectionComplete", code := 0x3E, sub := some 0x01, valid := none, fields := [⟨"SubeventCode", .u8, 0⟩, ⟨"Status", .u8, 1⟩, ⟨"ConnectionHandle", .u16, 2⟩, ⟨"Role", .u8, 4⟩, ⟨"PeerAddressType", .u8, 5⟩, ⟨"PeerAddress", .addr, 6⟩, ⟨"ConnInterval", .u16, 12⟩, ⟨"ConnLatency", .u16, 14⟩, ⟨"SupervisionTimeout", .u16, 16⟩, ⟨"MasterClockAccuracy", .u8, 18⟩] }, -- evt_gen.go:101-125
    { name := "LEAdvertisingReport", code := 0x3E, sub := some 0x02, valid := none, fields := [] }, -- evt_gen.go:132-132
    { name := "LEConnectionUpdateComplete", code := 0x0E, sub := some 0x03, valid := none, fields := [⟨"SubeventCode", .u8, 0⟩, ⟨"Status", .u8, 1⟩, ⟨"ConnectionHandle", .u16, 2⟩, ⟨"ConnInterval", .u16, 4⟩, ⟨"ConnLatency", .u16, 6⟩, ⟨"SupervisionTimeout", .u16, 8⟩] }, -- evt_gen.go:139-155
    { name := "LEReadRemoteUsedFeaturesComplete", code := 0x3E, sub := some 0x04, valid := none, fields := [⟨"SubeventCode", .u8, 0⟩, ⟨"Status", .u8, 1⟩, ⟨"ConnectionHandle", .u16, 2⟩, ⟨"LEFeatures", .u64, 4⟩] }, -- evt_gen.go:162-174
    { name := "LELongTermKeyRequest", code := 0x3E, sub := some 0x05, valid := none, fields := [⟨"SubeventCode", .u8, 0⟩, ⟨"ConnectionHandle", .u16, 1⟩, ⟨"RandomNumber", .u64, 3⟩, ⟨"EncryptionDiversifier", .u16, 11⟩] }, -- evt_gen.go:181-191
    { name := "LERemoteConnectionParameterRequest", code := 0x3E, sub := some 0x06, valid := none, fields := [⟨"SubeventCode", .u8, 0⟩, ⟨"ConnectionHandle", .u16, 1⟩, ⟨"IntervalMin", .u16, 3⟩, ⟨"IntervalMax", .u16, 5⟩, ⟨"Latency", .u16, 7⟩, ⟨"Timeout", .u16, 9⟩] }, -- evt_gen.go:198-220
    { name := "AuthenticatedPayloadTimeoutExpired", code := 0x57, sub := none, valid := none, fields := [⟨"ConnectionHandle", .u16, 0⟩] } ] -- evt_gen.go:225-229

end Ble.EvtGen
