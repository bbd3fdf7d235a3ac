import Verif.Hci.Dial
import Verif.Uuid.Lemmas
import Verif.Props.Uuid
import Verif.Props.CmdEnc
import Verif.Hci.Evt
set_option autoImplicit false

/-! # C48: `Dial` addresses the right peer -/

namespace Ble.Props.DialAux
open Ble.Dial

theorem byte_digits (x y : Nat) (hx : x < 16) (hy : y < 16) : hexEncode [UInt8.ofNat (x * 16 + y)] = [hexDigit x, hexDigit y] := by
  simp only [hexEncode, UInt8.toNat_ofNat']
  rw [show (x * 16 + y) % 2 ^ 8 / 16 = x by omega, show (x * 16 + y) % 2 ^ 8 % 16 = y by omega]

theorem xtoi2_some {s : Text} {sep : Char} {b : UInt8} (h : xtoi2 s sep = some b) :
    ∃ x y rest, s = x :: y :: rest ∧ (rest = [] ∨ rest.head? = some sep) ∧ [x.toLower, y.toLower] = hexEncode [b] := by
  match s, h with
  | x :: y :: rest, h =>
    simp only [xtoi2] at h
    split at h
    · cases h
    · rename_i hs
      split at h
      · rename_i m n hm hn
        obtain ⟨hm1, hm2⟩ := (fromHexChar_iff x m).1 hm
        obtain ⟨hn1, hn2⟩ := (fromHexChar_iff y n).1 hn
        refine ⟨x, y, rest, rfl, ?_, ?_⟩
        · cases rest with
          | nil => exact .inl rfl
          | cons c cs => simp at hs; exact .inr (by simp [hs])
        · injection h with h
          rw [← h, byte_digits m n hm1 hn1, hm2, hn2]
      · cases h

theorem macBytes_colon (n : Nat) : ∀ (s : Text) (b : Bytes), s.length = 3 * n + 2 → macBytes ':' (n + 1) s = some b → s.map Char.toLower = addrText b ∧ b.length = n + 1 := by
  induction n with
  | zero =>
    intro s b hl h
    simp only [macBytes] at h
    split at h
    · rename_i c cs h1 h2
      cases h2
      obtain ⟨x, y, rest, rfl, hr, he⟩ := xtoi2_some h1
      have : rest = [] := by simpa using hl
      subst this
      injection h with h; subst h
      simp [addrText, ← he]
    · cases h
  | succ n ih =>
    intro s b hl h
    rw [macBytes] at h
    split at h
    · rename_i c cs h1 h2
      obtain ⟨x, y, rest, rfl, hr, he⟩ := xtoi2_some h1
      injection h with h; subst h
      have hr' : ∃ t, rest = ':' :: t := by
        rcases hr with rfl | hr
        · simp at hl
        · cases rest with
          | nil => simp at hr
          | cons d t => simp at hr; exact ⟨t, by rw [hr]⟩
      obtain ⟨t, rfl⟩ := hr'
      have h3 : (x :: y :: ':' :: t).drop 3 = t := rfl
      rw [h3] at h2
      obtain ⟨i1, i2⟩ := ih t cs (by simp at hl; omega) h2
      refine ⟨?_, by simp [i2]⟩
      cases cs with
      | nil => simp at i2
      | cons d ds =>
        simp only [addrText, ← i1, ← he, List.map_cons]
        rfl
    · cases h

theorem macBytes_of_addrText (b : Bytes) : ∀ (s : Text), s.map Char.toLower = addrText b → macBytes ':' b.length s = some b := by
  induction b with
  | nil => intro s _; simp [macBytes]
  | cons c cs ih =>
    intro s h
    have hdig : ∀ x y : Char, [x.toLower, y.toLower] = hexEncode [c] → fromHexChar x = some (c.toNat / 16) ∧ fromHexChar y = some (c.toNat % 16) := by
      intro x y he
      have hc := c.toNat_lt
      simp only [hexEncode, List.cons.injEq, and_true] at he
      exact ⟨(fromHexChar_iff x _).2 ⟨by omega, he.1⟩, (fromHexChar_iff y _).2 ⟨by omega, he.2⟩⟩
    have hbyte : UInt8.ofNat (c.toNat / 16 * 16 + c.toNat % 16) = c := by
      rw [show c.toNat / 16 * 16 + c.toNat % 16 = c.toNat by omega]; simp
    cases cs with
    | nil =>
      match s, h with
      | [x, y], h =>
        simp only [addrText, List.map_cons, List.map_nil] at h
        obtain ⟨h1, h2⟩ := hdig x y h
        simp [macBytes, xtoi2, h1, h2, hbyte]
      | [], h => simp [addrText, hexEncode] at h
      | [x], h => simp [addrText, hexEncode] at h
      | x :: y :: z :: w, h => simp [addrText, hexEncode] at h
    | cons d ds =>
      match s, h with
      | [], h => simp [addrText, hexEncode] at h
      | [x], h => simp [addrText, hexEncode] at h
      | [x, y], h => simp [addrText, hexEncode] at h
      | x :: y :: z :: w, h =>
        simp only [addrText, List.map_cons] at h
        have hh : [x.toLower, y.toLower] = hexEncode [c] ∧ z.toLower = ':' ∧ w.map Char.toLower = addrText (d :: ds) := by
          simp only [hexEncode, List.cons_append, List.nil_append, List.cons.injEq] at h
          simp only [hexEncode, List.cons.injEq, and_true]
          exact ⟨⟨h.1, h.2.1⟩, h.2.2.1, h.2.2.2⟩
        obtain ⟨h1, h2⟩ := hdig x y hh.1
        have hz : z = ':' := by
          have := hh.2.1
          rw [char_eq_iff, toLower_toNat] at this
          have e : ':'.toNat = 58 := rfl
          rw [e] at this
          rw [char_eq_iff, e]
          split at this <;> omega
        rw [List.length_cons, macBytes]
        have := ih w hh.2.2
        simp only [List.drop_succ_cons, List.drop_zero, this]
        simp [xtoi2, h1, h2, hz, hbyte]

theorem hex_ne_colon {c : Char} {n : Nat} (h : fromHexChar c = some n) : (c != ':') = true := by
  simp only [bne_iff_ne, ne_eq]
  rintro rfl
  revert h; simp [show fromHexChar ':' = none by decide]

theorem addrText_length (b : Bytes) (h : b ≠ []) : (addrText b).length + 1 = 3 * b.length := by
  fun_induction addrText b with
  | case1 => exact absurd rfl h
  | case2 b => simp [hexEncode]
  | case3 b c bs ih => have := ih (by simp); simp [hexEncode] at *; omega

theorem hwString_eq (b : Bytes) : hwString b = addrText b := by
  fun_induction hwString b with
  | case1 => rfl
  | case2 b => rfl
  | case3 b c bs ih => simp [addrText, ih, hexEncode]

theorem addrText_lower (b : Bytes) : (addrText b).map Char.toLower = addrText b := by
  fun_induction addrText b with
  | case1 => rfl
  | case2 b => exact hexEncode_lower _
  | case3 b c bs ih =>
    rw [List.map_append, List.map_cons, ih, hexEncode_lower]
    rfl

theorem addrText_inj {a b : Bytes} (h : addrText a = addrText b) : a = b := by
  have := congrArg (strip ':') h
  rw [strip_addrText, strip_addrText] at this
  exact hexEncode_inj this

theorem six_eq (b : Bytes) (h : b.length = 6) : six b = b.reverse := by
  match b, h with
  | [a, b, c, d, e, f], _ => rfl

end Ble.Props.DialAux

namespace Ble.Props
open Ble.Dial DialAux

/-- What `ParseMAC` and `Bytes` make of a text, for `Dial`. -/
theorem dialAddr_iff (a : Addr) (r : UInt8 × Bytes) :
    dialAddr a = .ok r ↔ ∃ b : Bytes, b.length = 6 ∧ a.text.map Char.toLower = addrText b ∧ r = (if a.random then 1 else 0, b.reverse) := by
  obtain ⟨s, rnd⟩ := a
  constructor
  · intro h
    simp only [dialAddr] at h
    split at h
    · cases h
    · rename_i m hm
      split at h
      · cases h
      · rename_i hlen
        have hlen : (addrBytes s).length = 6 := by simpa using hlen
        injection h with h
        -- which form was it
        simp only [parseMAC] at hm
        split at hm
        · cases hm
        · rename_i hl14
          split at hm
          · rename_i hsep
            split at hm
            · cases hm
            · rename_i hmod
              split at hm
              · cases hm
              · rename_i hn
                rcases hsep with hsep | hsep
                · -- colons
                  rw [hsep] at hm
                  simp only [Option.getD_some] at hm
                  have hn1 : (s.length + 1) / 3 = ((s.length + 1) / 3 - 1) + 1 := by omega
                  rw [hn1] at hm
                  obtain ⟨h1, h2⟩ := macBytes_colon _ s m (by omega) hm
                  have hb : addrBytes s = m := by
                    have := addr_bytes m s (.inl h1)
                    -- `addrBytes` does not look at the letter case
                    unfold addrBytes at *
                    apply hexDecodePrefix_of_decode
                    rw [hexDecode_iff, ← strip_addrText, ← h1]
                    simp only [strip, List.filter_map]
                    congr 1
                    apply List.filter_congr
                    intro c _
                    simp only [Function.comp]
                    have e : ':'.toNat = 58 := rfl
                    rw [Bool.eq_iff_iff]
                    simp only [bne_iff_ne, ne_eq, char_eq_iff, toLower_toNat, e]
                    split <;> omega
                  refine ⟨m, by rw [← hb]; exact hlen, h1, ?_⟩
                  rw [← h, hb, swapBuf_eq]
                · -- dashes
                  exfalso
                  rw [hsep] at hm
                  simp only [Option.getD_some] at hm
                  have hn1 : (s.length + 1) / 3 = ((s.length + 1) / 3 - 1) + 1 := by omega
                  rw [hn1, macBytes] at hm
                  split at hm
                  · rename_i c cs h1 _
                    match s, hsep, h1, hl14 with
                    | x :: y :: z :: w, hsep, h1, _ =>
                      simp at hsep; subst hsep
                      simp only [xtoi2] at h1
                      split at h1
                      · cases h1
                      · split at h1
                        · rename_i p q hp hq
                          have e1 := hex_ne_colon hp
                          have e2 := hex_ne_colon hq
                          simp only [addrBytes, strip, List.filter_cons, e1, e2, if_true, show (('-' : Char) != ':') = true by decide] at hlen
                          simp only [hexDecodePrefix, hp, hq, List.length_cons] at hlen
                          cases hw : List.filter (fun x => x != ':') w with
                          | nil => rw [hw] at hlen; simp [hexDecodePrefix] at hlen
                          | cons u us => rw [hw] at hlen; simp [hexDecodePrefix, show fromHexChar '-' = none by decide] at hlen
                        · cases h1
                  · cases hm
          · split at hm
            · rename_i hdot
              split at hm
              · cases hm
              · split at hm
                · cases hm
                · rename_i hn
                  exfalso
                  have hn1 : 2 * (s.length + 1) / 5 / 2 = (2 * (s.length + 1) / 5 / 2 - 1) + 1 := by omega
                  rw [hn1, macPairs] at hm
                  split at hm
                  · rename_i c d cs h1 h2 _
                    match s, hdot, h1, h2, hl14 with
                    | x :: y :: z :: w :: v :: t, hdot, h1, h2, _ =>
                      simp at hdot; subst hdot
                      simp only [xtoi2, List.take_succ_cons, List.take_zero, List.drop_succ_cons, List.drop_zero] at h1 h2
                      split at h1
                      · cases h1
                      · split at h1
                        · rename_i p q hp hq
                          split at h2
                          · cases h2
                          · split at h2
                            · rename_i p' q' hp' hq'
                              have e1 := hex_ne_colon hp
                              have e2 := hex_ne_colon hq
                              have e3 := hex_ne_colon hp'
                              have e4 := hex_ne_colon hq'
                              simp only [addrBytes, strip, List.filter_cons, e1, e2, e3, e4, if_true, show (('.' : Char) != ':') = true by decide] at hlen
                              simp only [hexDecodePrefix, hp, hq, hp', hq', List.length_cons] at hlen
                              cases hw : List.filter (fun x => x != ':') t with
                              | nil => rw [hw] at hlen; simp [hexDecodePrefix] at hlen
                              | cons u us => rw [hw] at hlen; simp [hexDecodePrefix, show fromHexChar '.' = none by decide] at hlen
                            · cases h2
                        · cases h1
                  · cases hm
            · cases hm
  · rintro ⟨b, hb, ht, rfl⟩
    have hlen : s.length = 17 := by
      have h1 := congrArg List.length ht
      have h2 := addrText_length b (by intro h; simp [h] at hb)
      simp at h1; omega
    have hm := macBytes_of_addrText b s ht
    have h2 : s[2]? = some ':' := by
      match b, hb with
      | [b0, b1, b2, b3, b4, b5], _ =>
        have := congrArg (fun l : Text => l[2]?) ht
        simp only [addrText, hexEncode, List.getElem?_map] at this
        simp at this
        obtain ⟨z, hz, hz2⟩ := this
        rw [hz]
        congr 1
        have e : ':'.toNat = 58 := rfl
        rw [char_eq_iff, toLower_toNat, e] at hz2
        rw [char_eq_iff, e]
        split at hz2 <;> omega
    have hab : addrBytes s = b := by
      unfold addrBytes
      apply hexDecodePrefix_of_decode
      rw [hexDecode_iff, ← strip_addrText, ← ht]
      simp only [strip, List.filter_map]
      congr 1
      apply List.filter_congr
      intro c _
      simp only [Function.comp]
      have e : ':'.toNat = 58 := rfl
      rw [Bool.eq_iff_iff]
      simp only [bne_iff_ne, ne_eq, char_eq_iff, toLower_toNat, e]
      split <;> omega
    have hp : parseMAC s = some b := by
      simp only [parseMAC, hlen, h2]
      rw [hb] at hm
      simpa using hm
    simp only [dialAddr, hp, hab, hb, swapBuf_eq]
    simp

/-- The texts of six-byte addresses: two hexadecimal digits per byte in either letter case, colons between. -/
def IsAddr (s : Text) (b : Bytes) : Prop := b.length = 6 ∧ s.map Char.toLower = addrText b

theorem DialAux.lower_lower (s : Text) : (newAddr s).map Char.toLower = s.map Char.toLower := by
  simp only [newAddr, List.map_map]
  apply List.map_congr_left
  intro c _
  simp only [Function.comp, char_eq_iff, toLower_toNat]
  grind

/-- C48: `Dial(NewAddr(s))` accepts exactly the colon-separated texts of six-byte addresses, in any letter case; every other text, also the ones with dashes or dots that `net.ParseMAC` accepts,
is `ErrInvalidAddr`. The address is then put into the command least significant byte first, and its type is random exactly for a `RandomAddress`. -/
theorem dial_addr (s : Text) (random : Bool) :
    (∀ b, IsAddr s b → dialAddr ⟨newAddr s, random⟩ = .ok (if random then 1 else 0, b.reverse)) ∧
    ((¬ ∃ b, IsAddr s b) → dialAddr ⟨newAddr s, random⟩ = .err ()) := by
  constructor
  · intro b hb
    exact (dialAddr_iff _ _).2 ⟨b, hb.1, by rw [lower_lower]; exact hb.2, rfl⟩
  · intro hn
    cases h : dialAddr ⟨newAddr s, random⟩ with
    | ok r =>
      obtain ⟨b, h1, h2, -⟩ := (dialAddr_iff _ _).1 h
      exact absurd ⟨b, h1, by rw [lower_lower] at h2; exact h2⟩ hn
    | err e => rfl
    | panic =>
      simp only [dialAddr] at h
      split at h
      · cases h
      · split at h <;> cases h

/-- **C48, the part that holds.** Missing: the type of an address that was taken from a connection (`dial_remote_again_is_public`: false). -/
theorem dial_addr_partial (s : Text) (random : Bool) :
    (∀ b, IsAddr s b → dialAddr ⟨newAddr s, random⟩ = .ok (if random then 1 else 0, b.reverse)) ∧
    ((¬ ∃ b, IsAddr s b) → dialAddr ⟨newAddr s, random⟩ = .err ()) :=
  dial_addr s random

example : IsAddr "01:23:45:67:89:aB".toList [0x01, 0x23, 0x45, 0x67, 0x89, 0xAB] := ⟨rfl, by decide⟩
example : dialAddr ⟨newAddr "01:23:45:67:89:aB".toList, true⟩ = .ok (1, [0xAB, 0x89, 0x67, 0x45, 0x23, 0x01]) := by decide
example : dialAddr ⟨newAddr "01-23-45-67-89-ab".toList, false⟩ = .err () := by decide

/-- C48: the packet that `Dial` writes, octet by octet: LE Create Connection (OGF 8, OCF 0x000D, 25 parameter octets) with the user's parameters, the address type and the address, least
significant byte first. -/
theorem dial_packet (p : Params.Conn) (s : Text) (b : Bytes) (h : IsAddr s b) (random : Bool) (buf : Bytes) (hb : buf.length = 64) :
    dialPacket p ⟨newAddr s, random⟩ buf = .ok ([0x01, 0x0d, 0x20, 25] ++ HciCmd.leBytes 2 p.scanInterval.toNat ++ HciCmd.leBytes 2 p.scanWindow.toNat ++ [p.filterPolicy, if random then 1 else 0] ++
      b.reverse ++ [p.ownAddrType] ++ HciCmd.leBytes 2 p.intervalMin.toNat ++ HciCmd.leBytes 2 p.intervalMax.toNat ++ HciCmd.leBytes 2 p.latency.toNat ++ HciCmd.leBytes 2 p.timeout.toNat ++
      HciCmd.leBytes 2 p.ceMin.toNat ++ HciCmd.leBytes 2 p.ceMax.toNat) := by
  have hmem : leCreateConnection ∈ HciCmd.commands := by set_option maxRecDepth 100000 in decide
  have hty : (createConnection p (if random then 1 else 0) b.reverse).map HciCmd.Val.ty = leCreateConnection.tys := by
    simp [createConnection, HciCmd.Val.ty, leCreateConnection, HciCmd.Command.tys, h.1]
  have hp := hci_cmd_packet leCreateConnection hmem _ hty buf hb
  simp only [dialPacket, (dial_addr s random).1 b h]
  rw [hp.1, hp.2]
  have hop : HciCmd.leBytes 2 leCreateConnection.opCode = [0x0d, 0x20] := by decide
  have hl : HciCmd.leBytes 1 leCreateConnection.len = [25] := by decide
  have h1 : ∀ x : UInt8, HciCmd.leBytes 1 x.toNat = [x] := by intro x; simp [HciCmd.leBytes]
  rw [hop, hl]
  simp [createConnection, HciCmd.Val.octets, h1]

/-- C48, from a scan: dialling the address of an advertisement puts the six address bytes of the report into the command as they came, with type random exactly when the report said random (1). -/
theorem dial_scanned (addr : Bytes) (h : addr.length = 6) (t : UInt8) : dialAddr (advAddr addr t) = .ok (if t = 1 then 1 else 0, addr) := by
  have h1 : IsAddr (hwString (six addr)) addr.reverse := by
    refine ⟨by simp [h], ?_⟩
    rw [hwString_eq, six_eq _ h, addrText_lower]
  have := (dial_addr (hwString (six addr)) (t == 1)).1 _ h1
  simpa [advAddr] using this

/-- C48, the address of the connection: when the connection-complete event carries the address of the command, `RemoteAddr` (and the client's `Addr`) has the bytes and the lower-case text of the
address that was dialled. -/
theorem dial_remote_addr (s : Text) (b : Bytes) (h : IsAddr s b) (random : Bool) (t : UInt8) (wire : Bytes) (hd : dialAddr ⟨newAddr s, random⟩ = .ok (t, wire)) :
    (remoteAddr wire).text = newAddr s ∧ addrBytes (remoteAddr wire).text = b := by
  have h2 := (dial_addr s random).1 b h
  rw [hd] at h2
  injection h2 with h2
  have hw : wire = b.reverse := congrArg Prod.snd h2
  subst hw
  have e : (remoteAddr b.reverse).text = newAddr s := by
    simp only [remoteAddr, hwString_eq, six_eq _ (show b.reverse.length = 6 by simp [h.1]), List.reverse_reverse]
    rw [newAddr, addrText_lower, newAddr, h.2]
  refine ⟨e, ?_⟩
  rw [e]
  exact addr_bytes b s (.inl h.2)

/-- C48 is false of addresses taken from a connection: `RemoteAddr` forgets that the address is random, so dialling it again asks for a device with that public address, whatever the type in the
connection-complete event was. -/
theorem dial_remote_again_is_public (peer : Bytes) (h : peer.length = 6) : dialAddr (remoteAddr peer) = .ok (0, peer) := by
  have := dial_scanned peer h 0
  simpa [advAddr, remoteAddr] using this

example : dialAddr (advAddr [1, 2, 3, 4, 5, 0xC6] 1) = .ok (1, [1, 2, 3, 4, 5, 0xC6]) ∧ dialAddr (remoteAddr [1, 2, 3, 4, 5, 0xC6]) = .ok (0, [1, 2, 3, 4, 5, 0xC6]) := by decide

/-- C48 is false of the address types 2 and 3 that controllers resolving private addresses report: a random identity (3) is dialled as a public address. -/
theorem dial_random_identity (addr : Bytes) (h : addr.length = 6) : dialAddr (advAddr addr 3) = .ok (0, addr) := by
  simpa using dial_scanned addr h 3

end Ble.Props
