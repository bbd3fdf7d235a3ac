import Verif.Hci.EvtGet
set_option autoImplicit false

/-!
# HCI events, from the Bluetooth Core Specification, Vol 2, Part E, 7.7 (version 4.2)

Names are those of the specification without blanks; sizes are in octets. Events whose parameters are arrays, or have no fixed size, are listed without parameters: they are in `EvtSpec.lean`.
-/

namespace Ble.EvtGen

structure SpecEvt where
  name : String
  code : UInt8
  /-- subevents of the LE Meta event -/
  sub : Option UInt8
  params : List (String × Nat)
deriving DecidableEq, Repr

def specEvts : List SpecEvt :=
  [ ⟨"DisconnectionComplete", 0x05, none, [("Status", 1), ("ConnectionHandle", 2), ("Reason", 1)]⟩, -- 7.7.5
    ⟨"EncryptionChange", 0x08, none, [("Status", 1), ("ConnectionHandle", 2), ("EncryptionEnabled", 1)]⟩, -- 7.7.8
    ⟨"ReadRemoteVersionInformationComplete", 0x0C, none, [("Status", 1), ("ConnectionHandle", 2), ("Version", 1), ("ManufacturerName", 2), ("Subversion", 2)]⟩, -- 7.7.12
    ⟨"CommandComplete", 0x0E, none, []⟩, -- 7.7.14
    ⟨"CommandStatus", 0x0F, none, [("Status", 1), ("NumHCICommandPackets", 1), ("CommandOpcode", 2)]⟩, -- 7.7.15
    ⟨"HardwareError", 0x10, none, [("HardwareCode", 1)]⟩, -- 7.7.16
    ⟨"NumberOfCompletedPackets", 0x13, none, []⟩, -- 7.7.19
    ⟨"DataBufferOverflow", 0x1A, none, [("LinkType", 1)]⟩, -- 7.7.26
    ⟨"EncryptionKeyRefreshComplete", 0x30, none, [("Status", 1), ("ConnectionHandle", 2)]⟩, -- 7.7.39
    ⟨"LEConnectionComplete", 0x3E, some 0x01, [("SubeventCode", 1), ("Status", 1), ("ConnectionHandle", 2), ("Role", 1), ("PeerAddressType", 1), ("PeerAddress", 6), ("ConnInterval", 2),
      ("ConnLatency", 2), ("SupervisionTimeout", 2), ("MasterClockAccuracy", 1)]⟩, -- 7.7.65.1
    ⟨"LEAdvertisingReport", 0x3E, some 0x02, []⟩, -- 7.7.65.2
    ⟨"LEConnectionUpdateComplete", 0x3E, some 0x03, [("SubeventCode", 1), ("Status", 1), ("ConnectionHandle", 2), ("ConnInterval", 2), ("ConnLatency", 2), ("SupervisionTimeout", 2)]⟩, -- 7.7.65.3
    ⟨"LEReadRemoteUsedFeaturesComplete", 0x3E, some 0x04, [("SubeventCode", 1), ("Status", 1), ("ConnectionHandle", 2), ("LEFeatures", 8)]⟩, -- 7.7.65.4
    ⟨"LELongTermKeyRequest", 0x3E, some 0x05, [("SubeventCode", 1), ("ConnectionHandle", 2), ("RandomNumber", 8), ("EncryptionDiversifier", 2)]⟩, -- 7.7.65.5
    ⟨"LERemoteConnectionParameterRequest", 0x3E, some 0x06, [("SubeventCode", 1), ("ConnectionHandle", 2), ("IntervalMin", 2), ("IntervalMax", 2), ("Latency", 2), ("Timeout", 2)]⟩, -- 7.7.65.6
    ⟨"AuthenticatedPayloadTimeoutExpired", 0x57, none, [("ConnectionHandle", 2)]⟩ ] -- 7.7.75

/-- A number of `n` octets, least significant first. -/
def octetsOf : Nat → Nat → Bytes
  | 0, _ => []
  | n + 1, v => UInt8.ofNat v :: octetsOf n (v / 256)

/-- How a value is sent: numbers least significant octet first, addresses as they are. -/
def octets : (t : Ty) → t.Val → Bytes
  | .u8, v => octetsOf 1 (UInt8.toNat v)
  | .u16, v => octetsOf 2 (UInt16.toNat v)
  | .u64, v => octetsOf 8 (UInt64.toNat v)
  | .addr, v => v.1

def Ty.size : Ty → Nat
  | .u8 => 1
  | .u16 => 2
  | .u64 => 8
  | .addr => 6

/-- The parameters with these values, one after the other. -/
def wire (e : Evt) (v : (f : Field) → f.ty.Val) : Bytes := e.fields.flatMap fun f => octets f.ty (v f)

/-- The event a type of the library stands for. -/
def Evt.spec (e : Evt) : SpecEvt := ⟨e.name, e.code, e.sub, e.fields.map fun f => (f.name, f.ty.size)⟩

end Ble.EvtGen
