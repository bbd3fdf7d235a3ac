import Verif.Att.Pdu
set_option autoImplicit false

/-!
# The PDU types of linux/att/att_gen.go

Generated by tools/gen_att.py from the Go source: for each type the constant `SetAttributeOpcode` writes, and its other fields with the type and the offset of the getter and of the setter. The getter `AttributeOpcode` of every type reads,
and the setter writes, octet 0.
-/

namespace Ble.AttPdu

/-- Every type of att_gen.go, with all its methods. -/
def pdus : List Pdu :=
  [ { name := "ErrorResponse", code := 0x01, fields := [{ name := "RequestOpcodeInError", ty := .u8, getAt := 1, setAt := 1 }, { name := "AttributeInError", ty := .u16, getAt := 2, setAt := 2 }, { name := "ErrorCode", ty := .u8, getAt := 4, setAt := 4 }] }, -- att_gen.go:9-27
  { name := "ExchangeMTURequest", code := 0x02, fields := [{ name := "ClientRxMTU", ty := .u16, getAt := 1, setAt := 1 }] }, -- att_gen.go:39-51
  { name := "ExchangeMTUResponse", code := 0x03, fields := [{ name := "ServerRxMTU", ty := .u16, getAt := 1, setAt := 1 }] }, -- att_gen.go:57-69
  { name := "FindInformationRequest", code := 0x04, fields := [{ name := "StartingHandle", ty := .u16, getAt := 1, setAt := 1 }, { name := "EndingHandle", ty := .u16, getAt := 3, setAt := 3 }] }, -- att_gen.go:75-93
  { name := "FindInformationResponse", code := 0x05, fields := [{ name := "Format", ty := .u8, getAt := 1, setAt := 1 }, { name := "InformationData", ty := .rest, getAt := 2, setAt := 2 }] }, -- att_gen.go:99-117
  { name := "FindByTypeValueRequest", code := 0x06, fields := [{ name := "StartingHandle", ty := .u16, getAt := 1, setAt := 1 }, { name := "EndingHandle", ty := .u16, getAt := 3, setAt := 3 }, { name := "AttributeType", ty := .u16, getAt := 5, setAt := 5 }, { name := "AttributeValue", ty := .rest, getAt := 7, setAt := 7 }] }, -- att_gen.go:123-153
  { name := "FindByTypeValueResponse", code := 0x07, fields := [{ name := "HandleInformationList", ty := .rest, getAt := 1, setAt := 1 }] }, -- att_gen.go:159-171
  { name := "ReadByTypeRequest", code := 0x08, fields := [{ name := "StartingHandle", ty := .u16, getAt := 1, setAt := 1 }, { name := "EndingHandle", ty := .u16, getAt := 3, setAt := 3 }, { name := "AttributeType", ty := .rest, getAt := 5, setAt := 5 }] }, -- att_gen.go:177-201
  { name := "ReadByTypeResponse", code := 0x09, fields := [{ name := "Length", ty := .u8, getAt := 1, setAt := 1 }, { name := "AttributeDataList", ty := .rest, getAt := 2, setAt := 2 }] }, -- att_gen.go:207-225
  { name := "ReadRequest", code := 0x0A, fields := [{ name := "AttributeHandle", ty := .u16, getAt := 1, setAt := 1 }] }, -- att_gen.go:231-243
  { name := "ReadResponse", code := 0x0B, fields := [{ name := "AttributeValue", ty := .rest, getAt := 1, setAt := 1 }] }, -- att_gen.go:249-261
  { name := "ReadBlobRequest", code := 0x0C, fields := [{ name := "AttributeHandle", ty := .u16, getAt := 1, setAt := 1 }, { name := "ValueOffset", ty := .u16, getAt := 3, setAt := 3 }] }, -- att_gen.go:267-285
  { name := "ReadBlobResponse", code := 0x0D, fields := [{ name := "PartAttributeValue", ty := .rest, getAt := 1, setAt := 1 }] }, -- att_gen.go:291-303
  { name := "ReadMultipleRequest", code := 0x0E, fields := [{ name := "SetOfHandles", ty := .rest, getAt := 1, setAt := 1 }] }, -- att_gen.go:309-321
  { name := "ReadMultipleResponse", code := 0x0F, fields := [{ name := "SetOfValues", ty := .rest, getAt := 1, setAt := 1 }] }, -- att_gen.go:327-339
  { name := "ReadByGroupTypeRequest", code := 0x10, fields := [{ name := "StartingHandle", ty := .u16, getAt := 1, setAt := 1 }, { name := "EndingHandle", ty := .u16, getAt := 3, setAt := 3 }, { name := "AttributeGroupType", ty := .rest, getAt := 5, setAt := 5 }] }, -- att_gen.go:345-369
  { name := "ReadByGroupTypeResponse", code := 0x11, fields := [{ name := "Length", ty := .u8, getAt := 1, setAt := 1 }, { name := "AttributeDataList", ty := .rest, getAt := 2, setAt := 2 }] }, -- att_gen.go:375-393
  { name := "WriteRequest", code := 0x12, fields := [{ name := "AttributeHandle", ty := .u16, getAt := 1, setAt := 1 }, { name := "AttributeValue", ty := .rest, getAt := 3, setAt := 3 }] }, -- att_gen.go:399-417
  { name := "WriteResponse", code := 0x13, fields := [] }, -- att_gen.go:423-429
  { name := "WriteCommand", code := 0x52, fields := [{ name := "AttributeHandle", ty := .u16, getAt := 1, setAt := 1 }, { name := "AttributeValue", ty := .rest, getAt := 3, setAt := 3 }] }, -- att_gen.go:435-453
  { name := "SignedWriteCommand", code := 0xD2, fields := [{ name := "AttributeHandle", ty := .u16, getAt := 1, setAt := 1 }, { name := "AttributeValue", ty := .rest, getAt := 3, setAt := 3 }, { name := "AuthenticationSignature", ty := .sig, getAt := 3, setAt := 3 }] }, -- att_gen.go:459-487
  { name := "PrepareWriteRequest", code := 0x16, fields := [{ name := "AttributeHandle", ty := .u16, getAt := 1, setAt := 1 }, { name := "ValueOffset", ty := .u16, getAt := 3, setAt := 3 }, { name := "PartAttributeValue", ty := .rest, getAt := 5, setAt := 5 }] }, -- att_gen.go:493-517
  { name := "PrepareWriteResponse", code := 0x17, fields := [{ name := "AttributeHandle", ty := .u16, getAt := 1, setAt := 1 }, { name := "ValueOffset", ty := .u16, getAt := 3, setAt := 3 }, { name := "PartAttributeValue", ty := .rest, getAt := 5, setAt := 5 }] }, -- att_gen.go:523-547
  { name := "ExecuteWriteRequest", code := 0x18, fields := [{ name := "Flags", ty := .u8, getAt := 1, setAt := 1 }] }, -- att_gen.go:553-565
  { name := "ExecuteWriteResponse", code := 0x19, fields := [] }, -- att_gen.go:571-577
  { name := "HandleValueNotification", code := 0x1B, fields := [{ name := "AttributeHandle", ty := .u16, getAt := 1, setAt := 1 }, { name := "AttributeValue", ty := .rest, getAt := 3, setAt := 3 }] }, -- att_gen.go:583-603
  { name := "HandleValueIndication", code := 0x1D, fields := [{ name := "AttributeHandle", ty := .u16, getAt := 1, setAt := 1 }, { name := "AttributeValue", ty := .rest, getAt := 3, setAt := 3 }] }, -- att_gen.go:609-627
  { name := "HandleValueConfirmation", code := 0x1E, fields := [] } ] -- att_gen.go:633-639

end Ble.AttPdu
