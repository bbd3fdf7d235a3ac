import Verif.Att.Pdu
set_option autoImplicit false

/-!
# ATT PDUs, from the Bluetooth Core Specification, Vol 3, Part F, 3.4

Names are those of the specification without blanks; sizes are in octets, `none` stands for the rest of the PDU.
-/

namespace Ble.AttPdu

structure SpecPdu where
  name : String
  opcode : UInt8
  fields : List (String × Option Nat)
deriving DecidableEq, Repr

/-- 3.4.1 to 3.4.7 and 3.4.5.4; without the PDUs added in versions 5.2 and later (Read Multiple Variable, Multiple Handle Value Notification). -/
def specPdus : List SpecPdu :=
  [ ⟨"ErrorResponse", 0x01, [("RequestOpcodeInError", some 1), ("AttributeInError", some 2), ("ErrorCode", some 1)]⟩,
    ⟨"ExchangeMTURequest", 0x02, [("ClientRxMTU", some 2)]⟩,
    ⟨"ExchangeMTUResponse", 0x03, [("ServerRxMTU", some 2)]⟩,
    ⟨"FindInformationRequest", 0x04, [("StartingHandle", some 2), ("EndingHandle", some 2)]⟩,
    ⟨"FindInformationResponse", 0x05, [("Format", some 1), ("InformationData", none)]⟩,
    ⟨"FindByTypeValueRequest", 0x06, [("StartingHandle", some 2), ("EndingHandle", some 2), ("AttributeType", some 2), ("AttributeValue", none)]⟩,
    ⟨"FindByTypeValueResponse", 0x07, [("HandleInformationList", none)]⟩,
    ⟨"ReadByTypeRequest", 0x08, [("StartingHandle", some 2), ("EndingHandle", some 2), ("AttributeType", none)]⟩,
    ⟨"ReadByTypeResponse", 0x09, [("Length", some 1), ("AttributeDataList", none)]⟩,
    ⟨"ReadRequest", 0x0A, [("AttributeHandle", some 2)]⟩,
    ⟨"ReadResponse", 0x0B, [("AttributeValue", none)]⟩,
    ⟨"ReadBlobRequest", 0x0C, [("AttributeHandle", some 2), ("ValueOffset", some 2)]⟩,
    ⟨"ReadBlobResponse", 0x0D, [("PartAttributeValue", none)]⟩,
    ⟨"ReadMultipleRequest", 0x0E, [("SetOfHandles", none)]⟩,
    ⟨"ReadMultipleResponse", 0x0F, [("SetOfValues", none)]⟩,
    ⟨"ReadByGroupTypeRequest", 0x10, [("StartingHandle", some 2), ("EndingHandle", some 2), ("AttributeGroupType", none)]⟩,
    ⟨"ReadByGroupTypeResponse", 0x11, [("Length", some 1), ("AttributeDataList", none)]⟩,
    ⟨"WriteRequest", 0x12, [("AttributeHandle", some 2), ("AttributeValue", none)]⟩,
    ⟨"WriteResponse", 0x13, []⟩,
    ⟨"WriteCommand", 0x52, [("AttributeHandle", some 2), ("AttributeValue", none)]⟩,
    ⟨"PrepareWriteRequest", 0x16, [("AttributeHandle", some 2), ("ValueOffset", some 2), ("PartAttributeValue", none)]⟩,
    ⟨"PrepareWriteResponse", 0x17, [("AttributeHandle", some 2), ("ValueOffset", some 2), ("PartAttributeValue", none)]⟩,
    ⟨"ExecuteWriteRequest", 0x18, [("Flags", some 1)]⟩,
    ⟨"ExecuteWriteResponse", 0x19, []⟩,
    ⟨"HandleValueNotification", 0x1B, [("AttributeHandle", some 2), ("AttributeValue", none)]⟩,
    ⟨"HandleValueIndication", 0x1D, [("AttributeHandle", some 2), ("AttributeValue", none)]⟩,
    ⟨"HandleValueConfirmation", 0x1E, []⟩,
    ⟨"SignedWriteCommand", 0xD2, [("AttributeHandle", some 2), ("AttributeValue", none), ("AuthenticationSignature", some 12)]⟩ ]

/-- How a value is written: numbers least significant octet first, the others as they are. -/
def octets : (t : Ty) → t.Val → Bytes
  | .u8, v => [v]
  | .u16, v => [UInt8.ofNat (UInt16.toNat v), UInt8.ofNat (UInt16.toNat v / 256)]
  | .rest, v => v
  | .sig, v => v.1

/-- The PDU with these values: the opcode and then the fields, one after the other. -/
def wire (p : Pdu) (v : (f : Field) → f.ty.Val) : Bytes := p.code :: p.fields.flatMap fun f => octets f.ty (v f)

def Ty.size : Ty → Option Nat
  | .u8 => some 1
  | .u16 => some 2
  | .rest => none
  | .sig => some 12

/-- What a type of the code declares, as the specification would say it. -/
def Pdu.spec (p : Pdu) : SpecPdu := ⟨p.name, p.code, p.fields.map fun f => (f.name, f.ty.size)⟩

end Ble.AttPdu
