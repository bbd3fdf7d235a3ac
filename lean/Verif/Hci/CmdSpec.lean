import Verif.Hci.CmdEnc
set_option autoImplicit false

/-!
# HCI commands in the Bluetooth Core Specification

Written from the Core Specification (Vol 4, Part E, 7; in version 4.2 Vol 2, Part E, 7), independently of cmd_gen.go: for each command its OGF and OCF, its parameters with their sizes in
octets, and the sizes of its return parameters (`none` for the commands that are only acknowledged with a Command Status event). Keys are the command names without "HCI_" and underscores.
-/

namespace Ble.HciCmd

/-- `n` octets of a number, least significant first. -/
def leBytes : Nat → Nat → Bytes
  | 0, _ => []
  | k + 1, x => UInt8.ofNat (x % 256) :: leBytes k (x / 256)

/-- The octets on the wire of a parameter: numbers are little-endian, negative ones in two's complement; octet strings are sent as they are. -/
def Val.octets : Val → Bytes
  | .u8 x => leBytes 1 x.toNat
  | .i8 x => leBytes 1 (x.toInt % 256).toNat
  | .u16 x => leBytes 2 x.toNat
  | .u64 x => leBytes 8 x.toNat
  | .bytes b => b

structure SpecCmd where
  name : String
  ogf : Nat
  ocf : Nat
  params : List (String × Nat)
  ret : Option (List Nat)

/-- The command packet [Vol 4, Part E, 5.4.1] behind the H4 packet type 0x01: opcode, total length of the parameters, parameters. -/
def SpecCmd.packet (s : SpecCmd) (params : List Bytes) : Bytes :=
  [0x01] ++ leBytes 2 (s.ogf * 1024 + s.ocf) ++ leBytes 1 params.flatten.length ++ params.flatten

/-- How the controller splits the parameter octets. -/
def splitSizes : List Nat → Bytes → List Bytes
  | [], _ => []
  | n :: ns, b => b.take n :: splitSizes ns (b.drop n)

/-- The commands. -/
def coreSpec : List SpecCmd :=
  [ { name := "Disconnect", ogf := 0x01, ocf := 0x0006, params := [("Connection_Handle", 2), ("Reason", 1)], ret := none },
    { name := "ReadRemoteVersionInformation", ogf := 0x01, ocf := 0x001D, params := [("Connection_Handle", 2)], ret := none },
    { name := "WriteDefaultLinkPolicySettings", ogf := 0x02, ocf := 0x000F, params := [("Default_Link_Policy_Settings", 2)], ret := some [1] },
    { name := "SetEventMask", ogf := 0x03, ocf := 0x0001, params := [("Event_Mask", 8)], ret := some [1] },
    { name := "Reset", ogf := 0x03, ocf := 0x0003, params := [], ret := some [1] },
    { name := "WritePageTimeout", ogf := 0x03, ocf := 0x0018, params := [("Page_Timeout", 2)], ret := some [1] },
    { name := "WriteClassOfDevice", ogf := 0x03, ocf := 0x0024, params := [("Class_Of_Device", 3)], ret := some [1] },
    { name := "ReadTransmitPowerLevel", ogf := 0x03, ocf := 0x002D, params := [("Connection_Handle", 2), ("Type", 1)], ret := some [1, 2, 1] },
    { name := "HostBufferSize", ogf := 0x03, ocf := 0x0033,
      params := [("Host_ACL_Data_Packet_Length", 2), ("Host_Synchronous_Data_Packet_Length", 1), ("Host_Total_Num_ACL_Data_Packets", 2), ("Host_Total_Num_Synchronous_Data_Packets", 2)], ret := some [1] },
    { name := "SetEventMaskPage2", ogf := 0x03, ocf := 0x0063, params := [("Event_Mask_Page_2", 8)], ret := some [1] },
    { name := "WriteLEHostSupport", ogf := 0x03, ocf := 0x006D, params := [("LE_Supported_Host", 1), ("Simultaneous_LE_Host", 1)], ret := some [1] },
    { name := "ReadAuthenticatedPayloadTimeout", ogf := 0x03, ocf := 0x007B, params := [("Connection_Handle", 2)], ret := some [1, 2, 2] },
    { name := "WriteAuthenticatedPayloadTimeout", ogf := 0x03, ocf := 0x007C, params := [("Connection_Handle", 2), ("Authenticated_Payload_Timeout", 2)], ret := some [1, 2] },
    { name := "ReadLocalVersionInformation", ogf := 0x04, ocf := 0x0001, params := [], ret := some [1, 1, 2, 1, 2, 2] },
    { name := "ReadLocalSupportedCommands", ogf := 0x04, ocf := 0x0002, params := [], ret := some [1, 64] },
    { name := "ReadLocalSupportedFeatures", ogf := 0x04, ocf := 0x0003, params := [], ret := some [1, 8] },
    { name := "ReadBufferSize", ogf := 0x04, ocf := 0x0005, params := [], ret := some [1, 2, 1, 2, 2] },
    { name := "ReadBDADDR", ogf := 0x04, ocf := 0x0009, params := [], ret := some [1, 6] },
    { name := "ReadRSSI", ogf := 0x05, ocf := 0x0005, params := [("Handle", 2)], ret := some [1, 2, 1] },
    { name := "LESetEventMask", ogf := 0x08, ocf := 0x0001, params := [("LE_Event_Mask", 8)], ret := some [1] },
    { name := "LEReadBufferSize", ogf := 0x08, ocf := 0x0002, params := [], ret := some [1, 2, 1] },
    { name := "LEReadLocalSupportedFeatures", ogf := 0x08, ocf := 0x0003, params := [], ret := some [1, 8] },
    { name := "LESetRandomAddress", ogf := 0x08, ocf := 0x0005, params := [("Random_Address", 6)], ret := some [1] },
    { name := "LESetAdvertisingParameters", ogf := 0x08, ocf := 0x0006,
      params := [("Advertising_Interval_Min", 2), ("Advertising_Interval_Max", 2), ("Advertising_Type", 1), ("Own_Address_Type", 1), ("Direct_Address_Type", 1), ("Direct_Address", 6),
        ("Advertising_Channel_Map", 1), ("Advertising_Filter_Policy", 1)], ret := some [1] },
    { name := "LEReadAdvertisingChannelTxPower", ogf := 0x08, ocf := 0x0007, params := [], ret := some [1, 1] },
    { name := "LESetAdvertisingData", ogf := 0x08, ocf := 0x0008, params := [("Advertising_Data_Length", 1), ("Advertising_Data", 31)], ret := some [1] },
    { name := "LESetScanResponseData", ogf := 0x08, ocf := 0x0009, params := [("Scan_Response_Data_Length", 1), ("Scan_Response_Data", 31)], ret := some [1] },
    { name := "LESetAdvertiseEnable", ogf := 0x08, ocf := 0x000A, params := [("Advertising_Enable", 1)], ret := some [1] },
    { name := "LESetScanParameters", ogf := 0x08, ocf := 0x000B,
      params := [("LE_Scan_Type", 1), ("LE_Scan_Interval", 2), ("LE_Scan_Window", 2), ("Own_Address_Type", 1), ("Scanning_Filter_Policy", 1)], ret := some [1] },
    { name := "LESetScanEnable", ogf := 0x08, ocf := 0x000C, params := [("LE_Scan_Enable", 1), ("Filter_Duplicates", 1)], ret := some [1] },
    { name := "LECreateConnection", ogf := 0x08, ocf := 0x000D,
      params := [("LE_Scan_Interval", 2), ("LE_Scan_Window", 2), ("Initiator_Filter_Policy", 1), ("Peer_Address_Type", 1), ("Peer_Address", 6), ("Own_Address_Type", 1), ("Conn_Interval_Min", 2),
        ("Conn_Interval_Max", 2), ("Conn_Latency", 2), ("Supervision_Timeout", 2), ("Minimum_CE_Length", 2), ("Maximum_CE_Length", 2)], ret := none },
    { name := "LECreateConnectionCancel", ogf := 0x08, ocf := 0x000E, params := [], ret := some [1] },
    { name := "LEReadWhiteListSize", ogf := 0x08, ocf := 0x000F, params := [], ret := some [1, 1] },
    { name := "LEClearWhiteList", ogf := 0x08, ocf := 0x0010, params := [], ret := some [1] },
    { name := "LEAddDeviceToWhiteList", ogf := 0x08, ocf := 0x0011, params := [("Address_Type", 1), ("Address", 6)], ret := some [1] },
    { name := "LERemoveDeviceFromWhiteList", ogf := 0x08, ocf := 0x0012, params := [("Address_Type", 1), ("Address", 6)], ret := some [1] },
    { name := "LEConnectionUpdate", ogf := 0x08, ocf := 0x0013,
      params := [("Connection_Handle", 2), ("Conn_Interval_Min", 2), ("Conn_Interval_Max", 2), ("Conn_Latency", 2), ("Supervision_Timeout", 2), ("Minimum_CE_Length", 2), ("Maximum_CE_Length", 2)], ret := none },
    { name := "LESetHostChannelClassification", ogf := 0x08, ocf := 0x0014, params := [("Channel_Map", 5)], ret := some [1] },
    { name := "LEReadChannelMap", ogf := 0x08, ocf := 0x0015, params := [("Connection_Handle", 2)], ret := some [1, 2, 5] },
    { name := "LEReadRemoteUsedFeatures", ogf := 0x08, ocf := 0x0016, params := [("Connection_Handle", 2)], ret := none },
    { name := "LEEncrypt", ogf := 0x08, ocf := 0x0017, params := [("Key", 16), ("Plaintext_Data", 16)], ret := some [1, 16] },
    { name := "LERand", ogf := 0x08, ocf := 0x0018, params := [], ret := some [1, 8] },
    { name := "LEStartEncryption", ogf := 0x08, ocf := 0x0019, params := [("Connection_Handle", 2), ("Random_Number", 8), ("Encrypted_Diversifier", 2), ("Long_Term_Key", 16)], ret := none },
    { name := "LELongTermKeyRequestReply", ogf := 0x08, ocf := 0x001A, params := [("Connection_Handle", 2), ("Long_Term_Key", 16)], ret := some [1, 2] },
    { name := "LELongTermKeyRequestNegativeReply", ogf := 0x08, ocf := 0x001B, params := [("Connection_Handle", 2)], ret := some [1, 2] },
    { name := "LEReadSupportedStates", ogf := 0x08, ocf := 0x001C, params := [], ret := some [1, 8] },
    { name := "LEReceiverTest", ogf := 0x08, ocf := 0x001D, params := [("RX_Channel", 1)], ret := some [1] },
    { name := "LETransmitterTest", ogf := 0x08, ocf := 0x001E, params := [("TX_Channel", 1), ("Length_Of_Test_Data", 1), ("Packet_Payload", 1)], ret := some [1] },
    { name := "LETestEnd", ogf := 0x08, ocf := 0x001F, params := [], ret := some [1, 2] },
    { name := "LERemoteConnectionParameterRequestReply", ogf := 0x08, ocf := 0x0020,
      params := [("Connection_Handle", 2), ("Interval_Min", 2), ("Interval_Max", 2), ("Latency", 2), ("Timeout", 2), ("Minimum_CE_Length", 2), ("Maximum_CE_Length", 2)], ret := some [1, 2] },
    { name := "LERemoteConnectionParameterRequestNegativeReply", ogf := 0x08, ocf := 0x0021, params := [("Connection_Handle", 2), ("Reason", 1)], ret := some [1, 2] },
    { name := "LEWriteSuggestedDefaultDataLength", ogf := 0x08, ocf := 0x0024, params := [("Suggested_Max_Tx_Octets", 2), ("Suggested_Max_Tx_Time", 2)], ret := some [1] } ]

/-- Names without underscores. -/
def plain (s : String) : String := String.ofList (s.toList.filter (· ≠ '_'))

end Ble.HciCmd
