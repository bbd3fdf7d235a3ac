import Verif.Hci.CmdEnc
set_option autoImplicit false

/-!
# The commands and replies of linux/hci/cmd/cmd_gen.go

Generated by tools/gen_cmds.py from the Go source: for each struct its fields in order, the result of `OpCode()` and of `Len()`.
Not in the table, because it has no `Marshal` method and so is not a `Command`: `HostNumberOfCompletedPackets` (cmd_gen.go:259-273).
-/

namespace Ble.HciCmd

/-- Every type of linux/hci/cmd with `OpCode`, `Len` and `Marshal`. -/
def commands : List Command :=
  [ { name := "Disconnect", opCode := 0x01 <<< 10 ||| 0x0006, len := 3, fields := [("ConnectionHandle", .u16), ("Reason", .u8)] }, -- cmd_gen.go:4-22
  { name := "ReadRemoteVersionInformation", opCode := 0x01 <<< 10 ||| 0x001d, len := 2, fields := [("ConnectionHandle", .u16)] }, -- cmd_gen.go:25-42
  { name := "WriteDefaultLinkPolicySettings", opCode := 0x02 <<< 10 ||| 0x000d, len := 2, fields := [("DefaultLinkPolicySettings", .u16)] }, -- cmd_gen.go:45-62
  { name := "SetEventMask", opCode := 0x03 <<< 10 ||| 0x0001, len := 8, fields := [("EventMask", .u64)] }, -- cmd_gen.go:75-92
  { name := "Reset", opCode := 0x03 <<< 10 ||| 0x0003, len := 0, fields := [] }, -- cmd_gen.go:105-121
  { name := "WritePageTimeout", opCode := 0x03 <<< 10 ||| 0x0018, len := 2, fields := [("PageTimeout", .u16)] }, -- cmd_gen.go:134-151
  { name := "WriteClassOfDevice", opCode := 0x03 <<< 10 ||| 0x0024, len := 3, fields := [("ClassOfDevice", .bytes 3)] }, -- cmd_gen.go:164-181
  { name := "ReadTransmitPowerLevel", opCode := 0x03 <<< 10 ||| 0x002d, len := 3, fields := [("ConnectionHandle", .u16), ("Type", .u8)] }, -- cmd_gen.go:194-212
  { name := "HostBufferSize", opCode := 0x03 <<< 10 ||| 0x0033, len := 7, fields := [("HostACLDataPacketLength", .u16), ("HostSynchronousDataPacketLength", .u8), ("HostTotalNumACLDataPackets", .u16), ("HostTotalNumSynchronousDataPackets", .u16)] }, -- cmd_gen.go:226-246
  { name := "SetEventMaskPage2", opCode := 0x03 <<< 10 ||| 0x0063, len := 8, fields := [("EventMaskPage2", .u64)] }, -- cmd_gen.go:276-293
  { name := "WriteLEHostSupport", opCode := 0x03 <<< 10 ||| 0x006d, len := 2, fields := [("LESupportedHost", .u8), ("SimultaneousLEHost", .u8)] }, -- cmd_gen.go:306-324
  { name := "ReadAuthenticatedPayloadTimeout", opCode := 0x03 <<< 10 ||| 0x007b, len := 2, fields := [("ConnectionHandle", .u16)] }, -- cmd_gen.go:337-354
  { name := "WriteAuthenticatedPayloadTimeout", opCode := 0x01 <<< 10 ||| 0x007c, len := 4, fields := [("ConnectionHandle", .u16), ("AuthenticatedPayloadTimeout", .u16)] }, -- cmd_gen.go:369-387
  { name := "ReadLocalVersionInformation", opCode := 0x04 <<< 10 ||| 0x0001, len := 0, fields := [] }, -- cmd_gen.go:401-417
  { name := "ReadLocalSupportedCommands", opCode := 0x04 <<< 10 ||| 0x0002, len := 0, fields := [] }, -- cmd_gen.go:435-451
  { name := "ReadLocalSupportedFeatures", opCode := 0x04 <<< 10 ||| 0x0003, len := 0, fields := [] }, -- cmd_gen.go:465-481
  { name := "ReadBufferSize", opCode := 0x04 <<< 10 ||| 0x0005, len := 0, fields := [] }, -- cmd_gen.go:495-511
  { name := "ReadBDADDR", opCode := 0x04 <<< 10 ||| 0x0009, len := 0, fields := [] }, -- cmd_gen.go:528-544
  { name := "ReadRSSI", opCode := 0x05 <<< 10 ||| 0x0005, len := 2, fields := [("Handle", .u16)] }, -- cmd_gen.go:558-575
  { name := "LESetEventMask", opCode := 0x08 <<< 10 ||| 0x0001, len := 8, fields := [("LEEventMask", .u64)] }, -- cmd_gen.go:590-607
  { name := "LEReadBufferSize", opCode := 0x08 <<< 10 ||| 0x0002, len := 0, fields := [] }, -- cmd_gen.go:620-636
  { name := "LEReadLocalSupportedFeatures", opCode := 0x08 <<< 10 ||| 0x0003, len := 0, fields := [] }, -- cmd_gen.go:651-667
  { name := "LESetRandomAddress", opCode := 0x08 <<< 10 ||| 0x0005, len := 6, fields := [("RandomAddress", .bytes 6)] }, -- cmd_gen.go:681-698
  { name := "LESetAdvertisingParameters", opCode := 0x08 <<< 10 ||| 0x0006, len := 15, fields := [("AdvertisingIntervalMin", .u16), ("AdvertisingIntervalMax", .u16), ("AdvertisingType", .u8), ("OwnAddressType", .u8), ("DirectAddressType", .u8), ("DirectAddress", .bytes 6), ("AdvertisingChannelMap", .u8), ("AdvertisingFilterPolicy", .u8)] }, -- cmd_gen.go:711-735
  { name := "LEReadAdvertisingChannelTxPower", opCode := 0x08 <<< 10 ||| 0x0007, len := 0, fields := [] }, -- cmd_gen.go:748-764
  { name := "LESetAdvertisingData", opCode := 0x08 <<< 10 ||| 0x0008, len := 32, fields := [("AdvertisingDataLength", .u8), ("AdvertisingData", .bytes 31)] }, -- cmd_gen.go:778-796
  { name := "LESetScanResponseData", opCode := 0x08 <<< 10 ||| 0x0009, len := 32, fields := [("ScanResponseDataLength", .u8), ("ScanResponseData", .bytes 31)] }, -- cmd_gen.go:811-829
  { name := "LESetAdvertiseEnable", opCode := 0x08 <<< 10 ||| 0x000a, len := 1, fields := [("AdvertisingEnable", .u8)] }, -- cmd_gen.go:842-859
  { name := "LESetScanParameters", opCode := 0x08 <<< 10 ||| 0x000b, len := 7, fields := [("LEScanType", .u8), ("LEScanInterval", .u16), ("LEScanWindow", .u16), ("OwnAddressType", .u8), ("ScanningFilterPolicy", .u8)] }, -- cmd_gen.go:872-893
  { name := "LESetScanEnable", opCode := 0x08 <<< 10 ||| 0x000c, len := 2, fields := [("LEScanEnable", .u8), ("FilterDuplicates", .u8)] }, -- cmd_gen.go:906-924
  { name := "LECreateConnection", opCode := 0x08 <<< 10 ||| 0x000d, len := 25, fields := [("LEScanInterval", .u16), ("LEScanWindow", .u16), ("InitiatorFilterPolicy", .u8), ("PeerAddressType", .u8), ("PeerAddress", .bytes 6), ("OwnAddressType", .u8), ("ConnIntervalMin", .u16), ("ConnIntervalMax", .u16), ("ConnLatency", .u16), ("SupervisionTimeout", .u16), ("MinimumCELength", .u16), ("MaximumCELength", .u16)] }, -- cmd_gen.go:937-965
  { name := "LECreateConnectionCancel", opCode := 0x08 <<< 10 ||| 0x000e, len := 0, fields := [] }, -- cmd_gen.go:968-984
  { name := "LEReadWhiteListSize", opCode := 0x08 <<< 10 ||| 0x000f, len := 0, fields := [] }, -- cmd_gen.go:997-1013
  { name := "LEClearWhiteList", opCode := 0x08 <<< 10 ||| 0x0010, len := 0, fields := [] }, -- cmd_gen.go:1027-1043
  { name := "LEAddDeviceToWhiteList", opCode := 0x08 <<< 10 ||| 0x0011, len := 7, fields := [("AddressType", .u8), ("Address", .bytes 6)] }, -- cmd_gen.go:1056-1074
  { name := "LERemoveDeviceFromWhiteList", opCode := 0x08 <<< 10 ||| 0x0012, len := 7, fields := [("AddressType", .u8), ("Address", .bytes 6)] }, -- cmd_gen.go:1087-1105
  { name := "LEConnectionUpdate", opCode := 0x08 <<< 10 ||| 0x0013, len := 14, fields := [("ConnectionHandle", .u16), ("ConnIntervalMin", .u16), ("ConnIntervalMax", .u16), ("ConnLatency", .u16), ("SupervisionTimeout", .u16), ("MinimumCELength", .u16), ("MaximumCELength", .u16)] }, -- cmd_gen.go:1118-1141
  { name := "LESetHostChannelClassification", opCode := 0x08 <<< 10 ||| 0x0014, len := 5, fields := [("ChannelMap", .bytes 5)] }, -- cmd_gen.go:1144-1161
  { name := "LEReadChannelMap", opCode := 0x08 <<< 10 ||| 0x0015, len := 2, fields := [("ConnectionHandle", .u16)] }, -- cmd_gen.go:1174-1191
  { name := "LEReadRemoteUsedFeatures", opCode := 0x08 <<< 10 ||| 0x0016, len := 2, fields := [("ConnectionHandle", .u16)] }, -- cmd_gen.go:1206-1223
  { name := "LEEncrypt", opCode := 0x08 <<< 10 ||| 0x0017, len := 32, fields := [("Key", .bytes 16), ("PlaintextData", .bytes 16)] }, -- cmd_gen.go:1226-1244
  { name := "LERand", opCode := 0x08 <<< 10 ||| 0x0018, len := 0, fields := [] }, -- cmd_gen.go:1258-1274
  { name := "LEStartEncryption", opCode := 0x08 <<< 10 ||| 0x0019, len := 28, fields := [("ConnectionHandle", .u16), ("RandomNumber", .u64), ("EncryptedDiversifier", .u16), ("LongTermKey", .bytes 16)] }, -- cmd_gen.go:1288-1308
  { name := "LELongTermKeyRequestReply", opCode := 0x08 <<< 10 ||| 0x001a, len := 18, fields := [("ConnectionHandle", .u16), ("LongTermKey", .bytes 16)] }, -- cmd_gen.go:1311-1329
  { name := "LELongTermKeyRequestNegativeReply", opCode := 0x08 <<< 10 ||| 0x001b, len := 2, fields := [("ConnectionHandle", .u16)] }, -- cmd_gen.go:1343-1360
  { name := "LEReadSupportedStates", opCode := 0x08 <<< 10 ||| 0x001c, len := 0, fields := [] }, -- cmd_gen.go:1374-1390
  { name := "LEReceiverTest", opCode := 0x08 <<< 10 ||| 0x001d, len := 1, fields := [("RXChannel", .u8)] }, -- cmd_gen.go:1404-1421
  { name := "LETransmitterTest", opCode := 0x08 <<< 10 ||| 0x001e, len := 3, fields := [("TXChannel", .u8), ("LengthOfTestData", .u8), ("PacketPayload", .u8)] }, -- cmd_gen.go:1434-1453
  { name := "LETestEnd", opCode := 0x08 <<< 10 ||| 0x001f, len := 0, fields := [] }, -- cmd_gen.go:1466-1482
  { name := "LERemoteConnectionParameterRequestReply", opCode := 0x08 <<< 10 ||| 0x0020, len := 14, fields := [("ConnectionHandle", .u16), ("IntervalMin", .u16), ("IntervalMax", .u16), ("Latency", .u16), ("Timeout", .u16), ("MinimumCELength", .u16), ("MaximumCELength", .u16)] }, -- cmd_gen.go:1496-1519
  { name := "LERemoteConnectionParameterRequestNegativeReply", opCode := 0x08 <<< 10 ||| 0x0021, len := 3, fields := [("ConnectionHandle", .u16), ("Reason", .u8)] }, -- cmd_gen.go:1533-1551
  { name := "LEWriteSuggestedDefaultDataLength", opCode := 0x08 <<< 10 ||| 0x0024, len := 4, fields := [("SuggestedMaxTxOctets", .u16), ("SuggestedMaxTxTime", .u16)] } ] -- cmd_gen.go:1565-1583

/-- Every type of linux/hci/cmd with `Unmarshal`. -/
def replies : List Reply :=
  [ { name := "WriteDefaultLinkPolicySettingsRP", fields := [("Status", .u8)] }, -- cmd_gen.go:65-72
  { name := "SetEventMaskRP", fields := [("Status", .u8)] }, -- cmd_gen.go:95-102
  { name := "ResetRP", fields := [("Status", .u8)] }, -- cmd_gen.go:124-131
  { name := "WritePageTimeoutRP", fields := [("Status", .u8)] }, -- cmd_gen.go:154-161
  { name := "WriteClassOfDeviceRP", fields := [("Status", .u8)] }, -- cmd_gen.go:184-191
  { name := "ReadTransmitPowerLevelRP", fields := [("Status", .u8), ("ConnectionHandle", .u16)] }, -- cmd_gen.go:215-223
  { name := "HostBufferSizeRP", fields := [("Status", .u8)] }, -- cmd_gen.go:249-256
  { name := "SetEventMaskPage2RP", fields := [("Status", .u8)] }, -- cmd_gen.go:296-303
  { name := "WriteLEHostSupportRP", fields := [("Status", .u8)] }, -- cmd_gen.go:327-334
  { name := "ReadAuthenticatedPayloadTimeoutRP", fields := [("Status", .u8), ("ConnectionHandle", .u16), ("AuthenticatedPayloadTimeout", .u16)] }, -- cmd_gen.go:357-366
  { name := "WriteAuthenticatedPayloadTimeoutRP", fields := [("Status", .u8), ("ConnectionHandle", .u16)] }, -- cmd_gen.go:390-398
  { name := "ReadLocalVersionInformationRP", fields := [("Status", .u8), ("HCIVersion", .u8), ("HCIRevision", .u16), ("LMPPAMVersion", .u8), ("ManufacturerName", .u16), ("LMPPAMSubversion", .u16)] }, -- cmd_gen.go:420-432
  { name := "ReadLocalSupportedCommandsRP", fields := [("Status", .u8), ("Supporteds", .u64)] }, -- cmd_gen.go:454-462
  { name := "ReadLocalSupportedFeaturesRP", fields := [("Status", .u8), ("LMPFeatures", .u64)] }, -- cmd_gen.go:484-492
  { name := "ReadBufferSizeRP", fields := [("Status", .u8), ("HCACLDataPacketLength", .u16), ("HCSynchronousDataPacketLength", .u8), ("HCTotalNumACLDataPackets", .u16), ("HCTotalNumSynchronousDataPackets", .u16)] }, -- cmd_gen.go:514-525
  { name := "ReadBDADDRRP", fields := [("Status", .u8), ("BDADDR", .bytes 6)] }, -- cmd_gen.go:547-555
  { name := "ReadRSSIRP", fields := [("Status", .u8), ("ConnectionHandle", .u16), ("RSSI", .i8)] }, -- cmd_gen.go:578-587
  { name := "LESetEventMaskRP", fields := [("Status", .u8)] }, -- cmd_gen.go:610-617
  { name := "LEReadBufferSizeRP", fields := [("Status", .u8), ("HCLEDataPacketLength", .u16), ("HCTotalNumLEDataPackets", .u8)] }, -- cmd_gen.go:639-648
  { name := "LEReadLocalSupportedFeaturesRP", fields := [("Status", .u8), ("LEFeatures", .u64)] }, -- cmd_gen.go:670-678
  { name := "LESetRandomAddressRP", fields := [("Status", .u8)] }, -- cmd_gen.go:701-708
  { name := "LESetAdvertisingParametersRP", fields := [("Status", .u8)] }, -- cmd_gen.go:738-745
  { name := "LEReadAdvertisingChannelTxPowerRP", fields := [("Status", .u8), ("TransmitPowerLevel", .u8)] }, -- cmd_gen.go:767-775
  { name := "LESetAdvertisingDataRP", fields := [("Status", .u8), ("HCLEDataPacketLength", .u16), ("HCTotalNumLEDataPackets", .u8)] }, -- cmd_gen.go:799-808
  { name := "LESetScanResponseDataRP", fields := [("Status", .u8)] }, -- cmd_gen.go:832-839
  { name := "LESetAdvertiseEnableRP", fields := [("Status", .u8)] }, -- cmd_gen.go:862-869
  { name := "LESetScanParametersRP", fields := [("Status", .u8)] }, -- cmd_gen.go:896-903
  { name := "LESetScanEnableRP", fields := [("Status", .u8)] }, -- cmd_gen.go:927-934
  { name := "LECreateConnectionCancelRP", fields := [("Status", .u8)] }, -- cmd_gen.go:987-994
  { name := "LEReadWhiteListSizeRP", fields := [("Status", .u8), ("WhiteListSize", .u8)] }, -- cmd_gen.go:1016-1024
  { name := "LEClearWhiteListRP", fields := [("Status", .u8)] }, -- cmd_gen.go:1046-1053
  { name := "LEAddDeviceToWhiteListRP", fields := [("Status", .u8)] }, -- cmd_gen.go:1077-1084
  { name := "LERemoveDeviceFromWhiteListRP", fields := [("Status", .u8)] }, -- cmd_gen.go:1108-1115
  { name := "LESetHostChannelClassificationRP", fields := [("Status", .u8)] }, -- cmd_gen.go:1164-1171
  { name := "LEReadChannelMapRP", fields := [("Status", .u8), ("ConnectionHandle", .u16), ("ChannelMap", .bytes 5)] }, -- cmd_gen.go:1194-1203
  { name := "LEEncryptRP", fields := [("Status", .u8), ("EncryptedData", .bytes 16)] }, -- cmd_gen.go:1247-1255
  { name := "LERandRP", fields := [("Status", .u8), ("RandomNumber", .u64)] }, -- cmd_gen.go:1277-1285
  { name := "LELongTermKeyRequestReplyRP", fields := [("Status", .u8), ("ConnectionHandle", .u16)] }, -- cmd_gen.go:1332-1340
  { name := "LELongTermKeyRequestNegativeReplyRP", fields := [("Status", .u8), ("ConnectionHandle", .u16)] }, -- cmd_gen.go:1363-1371
  { name := "LEReadSupportedStatesRP", fields := [("Status", .u8), ("LEStates", .u64)] }, -- cmd_gen.go:1393-1401
  { name := "LEReceiverTestRP", fields := [("Status", .u8)] }, -- cmd_gen.go:1424-1431
  { name := "LETransmitterTestRP", fields := [("Status", .u8)] }, -- cmd_gen.go:1456-1463
  { name := "LETestEndRP", fields := [("Status", .u8), ("NumberOfPackats", .u16)] }, -- cmd_gen.go:1485-1493
  { name := "LERemoteConnectionParameterRequestReplyRP", fields := [("Status", .u8), ("ConnectionHandle", .u16)] }, -- cmd_gen.go:1522-1530
  { name := "LERemoteConnectionParameterRequestNegativeReplyRP", fields := [("Status", .u8), ("ConnectionHandle", .u16)] }, -- cmd_gen.go:1554-1562
  { name := "LEWriteSuggestedDefaultDataLengthRP", fields := [("Status", .u8)] } ] -- cmd_gen.go:1586-1593

end Ble.HciCmd
