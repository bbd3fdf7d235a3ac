import Verif.Smp.Machine
set_option autoImplicit false

/-!
# The Bluetooth specification's side of pairing

Core specification 5.0, Vol 3, Part H. Values are written most significant byte first, `++` is the specification's concatenation. Nothing here refers to the library's functions.
-/

namespace Ble.SmpSpec

variable (P : Smp.Prims)

/-- f4(U, V, X, Z) = AES-CMAC_X(U || V || Z): 2.2.6. -/
def f4 (u v x : Bytes) (z : UInt8) : Bytes := P.cmac x (u ++ v ++ [z])

/-- SALT of f5: 2.2.7. -/
def salt : Bytes := [0x6c, 0x88, 0x83, 0x91, 0xaa, 0xf5, 0xa5, 0x38, 0x60, 0x37, 0x0b, 0xdb, 0x5a, 0x60, 0x83, 0xbe]

/-- f5(W, N1, N2, A1, A2) with counter: AES-CMAC_T(Counter || keyID || N1 || N2 || A1 || A2 || Length), T = AES-CMAC_SALT(W), keyID = "btle", Length = 256: 2.2.7. -/
def f5 (counter : UInt8) (w n1 n2 a1 a2 : Bytes) : Bytes :=
  P.cmac (P.cmac salt w) ([counter] ++ [0x62, 0x74, 0x6c, 0x65] ++ n1 ++ n2 ++ a1 ++ a2 ++ [0x01, 0x00])

def macKey := f5 P 0
def ltk := f5 P 1

/-- f6(W, N1, N2, R, IOcap, A1, A2) = AES-CMAC_W(N1 || N2 || R || IOcap || A1 || A2): 2.2.8. -/
def f6 (w n1 n2 r ioCap a1 a2 : Bytes) : Bytes := P.cmac w (n1 ++ n2 ++ r ++ ioCap ++ a1 ++ a2)

/-- The number a big-endian string stands for. -/
def num (b : Bytes) : Nat := b.foldl (fun acc x => acc * 256 + x.toNat) 0

/-- g2(U, V, X, Y) = AES-CMAC_X(U || V || Y) mod 2^32, of which the six decimal digits are shown: 2.2.9. -/
def g2 (u v x y : Bytes) : Nat := num (P.cmac x (u ++ v ++ y)) % 2 ^ 32 % 10 ^ 6

def xor (a b : Bytes) : Bytes := List.zipWith (· ^^^ ·) a b

/-- c1(k, r, preq, pres, iat, rat, ia, ra) = e(k, e(k, r XOR p1) XOR p2), p1 = pres || preq || rat' || iat', p2 = padding || ia || ra: 2.2.3. -/
def c1 (k r preq pres : Bytes) (iat rat : UInt8) (ia ra : Bytes) : Bytes :=
  P.aes k (xor (P.aes k (xor r (pres ++ preq ++ [rat] ++ [iat]))) ([0, 0, 0, 0] ++ ia ++ ra))

/-- s1(k, r1, r2) = e(k, r1' || r2'), the least significant halves: 2.2.4. -/
def s1 (k r1 r2 : Bytes) : Bytes := P.aes k (r1.drop 8 ++ r2.drop 8)

/-- The pairing methods of 2.3.5.1, with table 2.8 (initiator's capabilities first). IO capabilities: 0 DisplayOnly, 1 DisplayYesNo, 2 KeyboardOnly, 3 NoInputNoOutput, 4 KeyboardDisplay. -/
inductive IO
  | displayOnly | displayYesNo | keyboardOnly | none | keyboardDisplay
deriving DecidableEq, Repr

def IO.ofByte (b : UInt8) : Option IO :=
  if b = 0 then some .displayOnly else if b = 1 then some .displayYesNo else if b = 2 then some .keyboardOnly
  else if b = 3 then some .none else if b = 4 then some .keyboardDisplay else Option.none

def IO.hasKeyboard : IO → Bool
  | .keyboardOnly | .keyboardDisplay => true
  | _ => false

def IO.hasDisplay : IO → Bool
  | .displayOnly | .displayYesNo | .keyboardDisplay => true
  | _ => false

/-- The user can see a number and say yes or no. -/
def IO.canCompare : IO → Bool
  | .displayYesNo | .keyboardDisplay => true
  | _ => false

/-- Table 2.8 in words: numeric comparison when both can compare (secure connections only); otherwise passkey entry when one side can type what the other shows, or both can type;
otherwise just works. -/
def ioMethod (secure : Bool) (i r : IO) : Smp.Method :=
  if secure && i.canCompare && r.canCompare then .numericComp
  else if (i.hasKeyboard && (r.hasDisplay || r.hasKeyboard)) || (r.hasKeyboard && i.hasDisplay) then .passkey
  else .justWorks

/-- 2.3.5.1: OOB if both sides have the peer's data (legacy) or one has (secure connections); just works if neither asks for MITM protection; otherwise by the IO capabilities. -/
def pairingMethod (secure : Bool) (iOob rOob iMitm rMitm : Bool) (i r : IO) : Smp.Method :=
  if (if secure then iOob || rOob else iOob && rOob) then .oob
  else if !iMitm && !rMitm then .justWorks
  else ioMethod secure i r

/-- Secure connections are used when both sides set the SC bit: 2.3.5.1. -/
def usesSecure (reqAuth rspAuth : UInt8) : Bool := reqAuth &&& 0x08 == 0x08 && rspAuth &&& 0x08 == 0x08

end Ble.SmpSpec
