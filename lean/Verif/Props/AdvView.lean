import Verif.Hci.AdvView
import Verif.Props.AdvHist
import Verif.Props.Adv
import Verif.Props.Dial
set_option autoImplicit false

/-!
# What an advertisement tells the application, and whether it stays the same
-/

namespace Ble.Props

open Ble.Spec Ble.AdvHist Ble.Evt DialAux

namespace AdvViewAux

theorem values_ne {p : Kind → Bool} {rs : List Rec} {v : Bytes} (hv : concatenated (values p rs) = some v) : v ≠ [] := by
  unfold concatenated at hv
  split at hv
  · simp at hv
  · rename_i hne
    cases hvs : values p rs with
    | nil => simp [hvs] at hne
    | cons a as =>
      have ha : a ∈ values p rs := by simp [hvs]
      unfold values at ha
      obtain ⟨r, hr, rfl⟩ := List.mem_map.1 ha
      have := (List.mem_filter.1 hr).2
      rw [hvs] at hv
      simp only [Option.some.injEq] at hv
      subst hv
      simp at this
      simp [this.2]

/-- What is decoded from a packet, completely or in part, is the meaning of a run of records. -/
theorem packet_meaning (chunks : List Bytes) (p : Packet) (h : newRawPacket chunks = .ok p) : ∃ rs, p.m.getD {} = meaning rs := by
  obtain ⟨-, h2⟩ := newRawPacket_outcome chunks
  obtain ⟨-, ⟨m, h3, h4, -⟩ | ⟨-, h4⟩ | ⟨e, m, h3, h4, -⟩⟩ := h2 p h
  · obtain ⟨-, rs, tail, -, -, -, -, a1, a2, a3, a4, a5, a6, a7⟩ := (parse_ok_iff _ m).1 h3
    refine ⟨rs, ?_⟩
    rw [h4]
    cases m
    simp only at a1 a2 a3 a4 a5 a6 a7
    simp [meaning, a1, a2, a3, a4, a5, a6, a7]
  · exact ⟨[], by rw [h4]; rfl⟩
  · rcases parse_err _ e m h3 with ⟨h5, h6⟩ | ⟨rs, rest, -, -, h5, -⟩
    · refine ⟨[], ?_⟩
      rw [h5] at h3
      simp only [adParse, List.length_nil, if_true, Go.err.injEq, Prod.mk.injEq] at h3
      rw [h4, ← h3.2]
      rfl
    · exact ⟨rs, by rw [h4]; exact h5⟩

end AdvViewAux

open AdvViewAux

/-- The transmit power that is decoded has at least one byte. -/
theorem txPower_present (chunks : List Bytes) (p : Packet) (h : newRawPacket chunks = .ok p) (b : Bytes) (hb : (p.m.getD {}).txpwr = some b) : b ≠ [] := by
  obtain ⟨rs, hm⟩ := packet_meaning chunks p h
  rw [hm] at hb
  exact values_ne hb

/-- **C116** What `ToMap` of an advertisement says: the address as twelve lower-case hexadecimal digits, most significant first, the types, whether it is connectable, the signal strength (-128 for a strength of zero) and exactly
the decoded content of its data, under the keys of the records it has. Missing: the sign of the transmit power (`toMap_txPower_wrong`: false). -/
theorem toMap_content_partial (r : Report) (hr : r.Ok) (a : Adv) (he : a.e = encodeRows [r]) (chunks : List Bytes) (hp : newRawPacket chunks = .ok a.p) :
    ∃ m, toMap a = .ok m ∧ m.mac = hexEncode r.addr.reverse ∧ m.addressType = r.addrType ∧ m.eventType = r.evType ∧ (m.connectable = true ↔ r.evType = 0 ∨ r.evType = 1) ∧
      m.rssi = (if int8 r.rssi = 0 then -128 else int8 r.rssi) ∧ m.name = (amap a).localName ∧ m.flags = (amap a).flags ∧ m.services = (amap a).services ∧ m.solicited = (amap a).solicited ∧
      m.serviceData = (amap a).serviceData ∧ m.mfg = (amap a).mfgdata ∧ m.error = a.p.advError ∧
      m.txPower = (amap a).txpwr.bind fun b => b.head?.map fun x => (x.toNat : Int) := by
  obtain ⟨f1, f2, f3, f4, f5, f6, f7⟩ := single_report_fields r hr
  have hsix : Dial.six r.addr = r.addr.reverse := by
    obtain ⟨h6, -⟩ := hr
    match r.addr, h6 with
    | [a0, a1, a2, a3, a4, a5], _ => rfl
  have hmac : strip ':' (newAddr (Dial.hwString r.addr.reverse)) = hexEncode r.addr.reverse := by
    rw [hwString_eq, newAddr, addrText_lower, strip_addrText]
  have htx : ∀ b, (amap a).txpwr = some b → b ≠ [] := fun b hb => txPower_present chunks a.p hp b hb
  have hA : aAddr a = .ok (Dial.advAddr r.addr r.addrType) := by simp only [aAddr]; erw [he, f4, Go.bind_ok, f3]; rfl
  have hT : aAddrType a = .ok r.addrType := by rw [aAddrType, he, f3]
  have hE : aEventType a = .ok r.evType := by rw [aEventType, he, f2]
  have hC : aConnectable a = .ok (r.evType == 0x01 || r.evType == 0x00) := by simp only [aConnectable, hE]; rfl
  have hR : aRSSI a = .ok (int8 r.rssi) := by simp only [aRSSI, he, f7]; rfl
  have hX : txOf a = .ok ((amap a).txpwr.bind fun b => b.head?.map fun x => (x.toNat : Int)) := by
    unfold txOf
    cases hb : (amap a).txpwr with
    | none => rfl
    | some b =>
      cases b with
      | nil => exact absurd rfl (htx [] hb)
      | cons x xs => rfl
  refine ⟨{ mac := hexEncode r.addr.reverse, addressType := r.addrType, eventType := r.evType, connectable := r.evType == 0x01 || r.evType == 0x00, rssi := if int8 r.rssi = 0 then -128 else int8 r.rssi,
            name := (amap a).localName, txPower := (amap a).txpwr.bind fun b => b.head?.map fun x => (x.toNat : Int), flags := (amap a).flags, services := (amap a).services, solicited := (amap a).solicited,
            serviceData := (amap a).serviceData, mfg := (amap a).mfgdata, error := a.p.advError }, ?_, rfl, rfl, rfl, ?_, rfl, rfl, rfl, rfl, rfl, rfl, rfl, rfl, rfl⟩
  · unfold toMap
    erw [hA, Go.bind_ok, hT, Go.bind_ok, hE, Go.bind_ok, hC, Go.bind_ok, hR, Go.bind_ok, hX, Go.bind_ok]
    simp only [Dial.advAddr, hsix, hmac]
    split <;> simp_all [pure]
  · simp [Or.comm]

/-- **C116** `ToMap` never crashes: for whatever event, of whatever length. -/
theorem toMap_returns (a : Adv) (chunks : List Bytes) (hp : newRawPacket chunks = .ok a.p) : (toMap a).returns = true := by
  obtain ⟨f1, f2, f3, f4, f5, f6, f7⟩ := report_accessors_no_panic a.e 0 (by omega)
  have htx : ∀ b, (amap a).txpwr = some b → b ≠ [] := fun b hb => txPower_present chunks a.p hp b hb
  have hE : (aEventType a).returns = true := f2
  unfold toMap
  refine Go.returns_bind (Go.returns_bind f4 fun _ _ => Go.returns_bind f3 fun _ _ => rfl) fun _ _ => ?_
  refine Go.returns_bind f3 fun _ _ => Go.returns_bind hE fun _ _ => Go.returns_bind (Go.returns_bind hE fun _ _ => rfl) fun _ _ => ?_
  refine Go.returns_bind (Go.returns_bind f7 fun _ _ => rfl) fun _ _ => Go.returns_bind ?_ fun _ _ => rfl
  unfold txOf
  split
  · rfl
  · rename_i b hb
    cases b with
    | nil => exact absurd rfl (htx [] hb)
    | cons x xs => rfl

/-- `TxPowerLevel` is the signed byte of the transmit power field, and 0 if there is none. -/
theorem view_txPower (a : Adv) : ((amap a).txpwr = none → aTxPowerLevel a = .ok 0) ∧
    ∀ x xs, (amap a).txpwr = some (x :: xs) → aTxPowerLevel a = .ok (if x.toNat < 128 then (x.toNat : Int) else (x.toNat : Int) - 256) := by
  constructor
  · intro h; simp only [aTxPowerLevel, getTxPower, h]; rfl
  · intro x xs h; simp only [aTxPowerLevel, getTxPower, h, index_cons_zero, Go.bind]; rfl

/-- **C116: where it fails.** A negative transmit power is reported by `ToMap` as a positive number, 256 more than what `TxPowerLevel` of the same advertisement returns. -/
theorem toMap_txPower_wrong (r : Report) (hr : r.Ok) (a : Adv) (he : a.e = encodeRows [r]) (chunks : List Bytes) (hp : newRawPacket chunks = .ok a.p) (x : UInt8) (xs : Bytes)
    (hx : (amap a).txpwr = some (x :: xs)) (hneg : 128 ≤ x.toNat) :
    ∃ m n, toMap a = .ok m ∧ aTxPowerLevel a = .ok n ∧ n < 0 ∧ m.txPower = some (n + 256) := by
  obtain ⟨m, h1, -, -, -, -, -, -, -, -, -, -, -, -, h2⟩ := toMap_content_partial r hr a he chunks hp
  have := x.toNat_lt
  refine ⟨m, (x.toNat : Int) - 256, h1, ?_, by omega, ?_⟩
  · simp only [aTxPowerLevel, getTxPower, hx, index_cons_zero, Go.bind]
    rw [if_neg (by omega)]; rfl
  · rw [h2, hx]; simp

/-- -12 dBm becomes 244. -/
example : ∃ p, newRawPacket [[2, 0x0A, 0xF4]] = .ok p ∧ (p.m.getD {}).txpwr = some [0xF4] :=
  ⟨_, by simp [newRawPacket, adParse, adParseLoop, slice, adRecord, pduDecode, writeOrAppend, Go.bind]; rfl, by rfl⟩

/-! ## Advertisements are shared objects -/

namespace AdvViewAux

/-- The pointers in the history are valid and distinct; they are to objects made since `n0` objects existed, of the two kinds that are remembered. -/
structure HInv (n0 : Nat) (h : Heap) : Prop where
  base : n0 ≤ h.objs.length
  valid : ∀ (i r : Nat), h.ring[i]? = some (some r) → n0 ≤ r ∧ ∃ a, h.objs[r]? = some a ∧ (eventType a.e 0 = .ok 0x00 ∨ eventType a.e 0 = .ok 0x02)
  inj : ∀ (i j r : Nat), h.ring[i]? = some (some r) → h.ring[j]? = some (some r) → i = j

theorem HInv_started (objs : List Adv) : HInv objs.length (Heap.started objs) :=
  have hn : ∀ (i r : Nat), (Heap.started objs).ring[i]? ≠ some (some r) := by
    intro i r hi
    simp only [Heap.started] at hi
    rw [List.getElem?_replicate] at hi
    split at hi <;> simp at hi
  ⟨Nat.le_refl _, fun i r hi => absurd hi (hn i r), fun i j r hi => absurd hi (hn i r)⟩

theorem view_get (h : Heap) (i : Nat) : h.view.ring[i]? = h.ring[i]?.map fun o => o.bind fun r => h.objs[r]? := by
  simp [Heap.view]

theorem view_length (h : Heap) : h.view.ring.length = h.ring.length := by simp [Heap.view]

theorem search_at (ring : List (Option Adv)) (last : Nat) (addr : Bytes) (fuel : Nat) : ∀ (i : Int) (k : Nat), search ring last addr fuel i = some (.at k) →
    ∃ a, ring[k]? = some (some a) ∧ addrOf a.e = .ok addr := by
  induction fuel with
  | zero => intro i k h; simp [search] at h
  | succ fuel ih =>
    intro i k h
    unfold search at h
    split at h
    · simp at h
    · simp only at h
      generalize (if i = -1 then (ring.length : Int) - 1 else i) = i' at h
      split at h
      · simp at h
      · split at h
        · simp at h
        · cases hri : ring[i'.toNat]? with
          | none => simp [hri] at h
          | some o =>
            cases o with
            | none => simp [hri] at h
            | some a =>
              simp only [hri] at h
              cases hb : addrOf a.e with
              | err x => simp [hb] at h
              | panic => simp [hb] at h
              | ok b =>
                simp only [hb] at h
                split at h
                · rename_i hab
                  simp only [Option.some.injEq, Found.at.injEq] at h
                  subst h
                  exact ⟨a, hri, by rw [hb, hab]⟩
                · exact ih _ _ h

/-- What one event does to the object `r`. -/
def Kept (h : Heap) (e : Bytes) (r : Nat) (a a' : Adv) : Prop :=
  a'.e = a.e ∧ (a' = a ∨ (some r ∈ h.ring ∧ eventType e 0 = .ok 0x04 ∧ addrOf e = addrOf a.e ∧ a'.sr = some e ∧ ∃ d d', data a.e 0 = .ok d ∧ data e 0 = .ok d' ∧ newRawPacket [d, d'] = .ok a'.p))

theorem handle_push (n0 : Nat) (h : Heap) (hi : HInv n0 h) (a : Adv) (ha : eventType a.e 0 = .ok 0x00 ∨ eventType a.e 0 = .ok 0x02) (hl : h.last < h.ring.length) (l : Nat) :
    HInv n0 { objs := h.objs ++ [a], ring := h.ring.set h.last (some h.objs.length), last := l } ∧
    ({ objs := h.objs ++ [a], ring := h.ring.set h.last (some h.objs.length), last := l } : Heap).view = { ring := h.view.ring.set h.last (some a), last := l } := by
  have hv : ∀ (i r : Nat), h.ring[i]? = some (some r) → r < h.objs.length := by
    intro i r hr
    obtain ⟨-, b, hb, -⟩ := hi.valid i r hr
    exact (List.getElem?_eq_some_iff.1 hb).1
  constructor
  · constructor
    · have := hi.base; simp; omega
    · intro i r hr
      simp only [List.getElem?_set] at hr
      split at hr
      · simp only [hl, if_true, Option.some.injEq] at hr
        subst hr
        exact ⟨hi.base, a, by simp, ha⟩
      · obtain ⟨h1, b, hb, h2⟩ := hi.valid i r hr
        exact ⟨h1, b, by rw [List.getElem?_append_left (hv i r hr)]; exact hb, h2⟩
    · intro i j r hr hr'
      simp only [List.getElem?_set] at hr hr'
      split at hr <;> split at hr'
      · omega
      · simp only [hl, if_true, Option.some.injEq] at hr
        subst hr
        exact absurd (hv j _ hr') (by omega)
      · simp only [hl, if_true, Option.some.injEq] at hr'
        subst hr'
        exact absurd (hv i _ hr) (by omega)
      · exact hi.inj i j r hr hr'
  · simp only [Heap.view, Scan.mk.injEq, and_true]
    apply List.ext_getElem?
    intro i
    simp only [List.getElem?_map, List.getElem?_set]
    split
    · simp only [List.length_map, hl, if_true]
      simp
    · cases hri : h.ring[i]? with
      | none => simp
      | some o =>
        cases o with
        | none => simp
        | some r => simp [List.getElem?_append_left (hv i r hri)]

theorem handle_append (n0 : Nat) (h : Heap) (hi : HInv n0 h) (a : Adv) : HInv n0 { h with objs := h.objs ++ [a] } ∧ ({ h with objs := h.objs ++ [a] } : Heap).view = h.view := by
  have hv : ∀ (i r : Nat), h.ring[i]? = some (some r) → r < h.objs.length := by
    intro i r hr
    obtain ⟨-, b, hb, -⟩ := hi.valid i r hr
    exact (List.getElem?_eq_some_iff.1 hb).1
  constructor
  · refine ⟨by have := hi.base; simp; omega, ?_, hi.inj⟩
    intro i r hr
    obtain ⟨h1, b, hb, h2⟩ := hi.valid i r hr
    exact ⟨h1, b, by simp only; rw [List.getElem?_append_left (hv i r hr)]; exact hb, h2⟩
  · simp only [Heap.view, Scan.mk.injEq, and_true]
    apply List.ext_getElem?
    intro i
    simp only [List.getElem?_map]
    cases hri : h.ring[i]? with
    | none => simp
    | some o =>
      cases o with
      | none => simp
      | some r => simp [List.getElem?_append_left (hv i r hri)]

theorem handle_mutate (n0 : Nat) (h : Heap) (hi : HInv n0 h) (idx r : Nat) (a a' : Adv) (hr : h.ring[idx]? = some (some r)) (ha : h.objs[r]? = some a) (he : a'.e = a.e) :
    HInv n0 { h with objs := h.objs.set r a' } ∧ ({ h with objs := h.objs.set r a' } : Heap).view = { h.view with ring := h.view.ring.set idx (some a') } := by
  have hlt := (List.getElem?_eq_some_iff.1 ha).1
  have hidx := (List.getElem?_eq_some_iff.1 hr).1
  constructor
  · refine ⟨by simpa using hi.base, ?_, hi.inj⟩
    intro i q hq
    obtain ⟨h1, b, hb, h2⟩ := hi.valid i q hq
    refine ⟨h1, ?_⟩
    simp only [List.getElem?_set]
    by_cases hrq : r = q
    · subst hrq
      rw [ha] at hb
      simp only [Option.some.injEq] at hb
      subst hb
      exact ⟨a', by simp [hlt], by rw [he]; exact h2⟩
    · exact ⟨b, by simp [hrq, hb], h2⟩
  · simp only [Heap.view, Scan.mk.injEq, and_true]
    apply List.ext_getElem?
    intro i
    simp only [List.getElem?_map]
    rw [List.getElem?_set (l := List.map _ _)]
    split
    · rename_i hii
      subst hii
      rw [hr]
      simp [hidx, hlt]
    · rename_i hii
      rw [List.getElem?_map]
      cases hri : h.ring[i]? with
      | none => simp
      | some o =>
        cases o with
        | none => simp
        | some q =>
          have : r ≠ q := fun hq => hii (hi.inj idx i r hr (by rw [hri, hq]))
          simp [List.getElem?_set, this]

/-- The handling on objects is the handling of AdvHist.lean, seen through the pointers. -/
theorem heap_step (n0 : Nat) (h : Heap) (hi : HInv n0 h) (e : Bytes) (h' : Heap) (o : Option Nat) (hh : h.handle e = .ok (h', o)) :
    (∃ out, handle h.view e = .ok out ∧ h'.view = out.st ∧ out.sent = o.bind (h'.objs[·]?)) ∧ HInv n0 h' ∧
    (∀ r a, h.objs[r]? = some a → ∃ a', h'.objs[r]? = some a' ∧ Kept h e r a a') ∧
    (∀ r, o = some r → r < h'.objs.length ∧ (r = h.objs.length ∨ eventType e 0 = .ok 0x04)) := by
  have hsame : ∀ r a, h.objs[r]? = some a → ∃ a', h.objs[r]? = some a' ∧ Kept h e r a a' := fun r a hr => ⟨a, hr, rfl, .inl rfl⟩
  have hgrow : ∀ b, ∀ r a, h.objs[r]? = some a → ∃ a', (h.objs ++ [b])[r]? = some a' ∧ Kept h e r a a' := fun b r a hr =>
    ⟨a, by rw [List.getElem?_append_left (List.getElem?_eq_some_iff.1 hr).1]; exact hr, rfl, .inl rfl⟩
  unfold Heap.handle at hh
  unfold handle
  split at hh
  · simp at hh
  · rename_i hn
    rw [hn]
    simp only [Go.ok.injEq, Prod.mk.injEq] at hh
    obtain ⟨rfl, rfl⟩ := hh
    exact ⟨⟨_, rfl, rfl, rfl⟩, hi, hsame, by simp⟩
  · rename_i nr hn
    rw [hn]
    simp only
    split at hh
    · rename_i h1
      simp only [Go.ok.injEq, Prod.mk.injEq] at hh
      obtain ⟨rfl, rfl⟩ := hh
      rw [if_pos h1]
      exact ⟨⟨_, rfl, rfl, rfl⟩, hi, hsame, by simp⟩
    · rename_i h1
      rw [if_neg h1]
      split at hh
      · simp at hh
      · rename_i hx
        rw [hx]
        simp only [Go.ok.injEq, Prod.mk.injEq] at hh
        obtain ⟨rfl, rfl⟩ := hh
        exact ⟨⟨_, rfl, rfl, rfl⟩, hi, hsame, by simp⟩
      · rename_i et het
        rw [het]
        simp only
        split at hh
        · rename_i h2
          rw [if_pos h2]
          split at hh
          · simp at hh
          · rename_i hx
            rw [hx]
            simp only [Go.ok.injEq, Prod.mk.injEq] at hh
            obtain ⟨rfl, rfl⟩ := hh
            exact ⟨⟨_, rfl, rfl, rfl⟩, hi, hsame, by simp⟩
          · rename_i a ha
            rw [ha]
            obtain ⟨d, p, -, -, rfl⟩ := (AdvAux.newAdv_ok_iff e a).1 ha
            simp only
            split at hh
            · rename_i hl
              simp only [Go.ok.injEq, Prod.mk.injEq] at hh
              obtain ⟨rfl, rfl⟩ := hh
              obtain ⟨g1, g2⟩ := handle_push n0 h hi ⟨e, none, p⟩ (by rcases h2 with rfl | rfl <;> simp [het]) hl (if h.last + 1 = h.ring.length then 0 else h.last + 1)
              have hrem : remember h.view ⟨e, none, p⟩ = .ok { ring := h.view.ring.set h.last (some ⟨e, none, p⟩), last := if h.last + 1 = h.ring.length then 0 else h.last + 1 } := by
                simp only [remember, view_length]
                rw [if_pos (show h.view.last < h.ring.length from hl)]
                rfl
              rw [hrem]
              exact ⟨⟨_, rfl, g2, by simp⟩, g1, hgrow _, fun r hr => by simp only [Option.some.injEq] at hr; subst hr; simp⟩
            · simp at hh
        · rename_i h2
          rw [if_neg h2]
          split at hh
          · rename_i h3
            rw [if_pos h3]
            subst h3
            unfold handleScanRsp
            split at hh
            · simp at hh
            · rename_i hx
              rw [hx]
              simp only [Go.ok.injEq, Prod.mk.injEq] at hh
              obtain ⟨rfl, rfl⟩ := hh
              exact ⟨⟨_, rfl, rfl, rfl⟩, hi, hsame, by simp⟩
            · rename_i sr hsr
              rw [hsr]
              obtain ⟨d, p, -, -, rfl⟩ := (AdvAux.newAdv_ok_iff e sr).1 hsr
              simp only
              split at hh
              · rename_i hx
                simp only [Go.ok.injEq, Prod.mk.injEq] at hh
                obtain ⟨rfl, rfl⟩ := hh
                simp only at hx
                rw [hx]
                exact ⟨⟨_, rfl, rfl, rfl⟩, hi, hsame, by simp⟩
              · simp at hh
              · rename_i addr haddr
                simp only at haddr
                rw [haddr]
                simp only [view_length]
                split at hh
                · rename_i idx hs
                  rw [show h.view.last = h.last from rfl, hs]
                  simp only [view_get]
                  split at hh
                  · rename_i r hr
                    simp only [hr, Option.map_some, Option.bind_some]
                    split at hh
                    · rename_i a ha
                      simp only [ha]
                      split at hh
                      · rename_i a' ha'
                        simp only [Go.ok.injEq, Prod.mk.injEq] at hh
                        obtain ⟨rfl, rfl⟩ := hh
                        obtain ⟨d1, d2, p', hd1, hd2, hp', rfl⟩ := (AdvAux.setScanResponse_ok_iff _ _ _).1 ha'
                        obtain ⟨g1, g2⟩ := handle_mutate n0 h hi idx r a { a with sr := some e, p := p' } hr ha rfl
                        obtain ⟨b, hb1, hb2⟩ := search_at _ _ _ _ _ _ hs
                        rw [view_get, hr] at hb1
                        simp only [Option.map_some, Option.bind_some, ha, Option.some.injEq] at hb1
                        subst hb1
                        rw [ha']
                        refine ⟨⟨_, rfl, g2, ?_⟩, g1, ?_, fun q hq => ⟨by simp only [Option.some.injEq] at hq; subst hq; simpa using (List.getElem?_eq_some_iff.1 ha).1, .inr trivial⟩⟩
                        · simp [List.getElem?_set, (List.getElem?_eq_some_iff.1 ha).1]
                        · intro q x hx
                          by_cases hrq : r = q
                          · subst hrq
                            rw [ha] at hx
                            simp only [Option.some.injEq] at hx
                            subst hx
                            refine ⟨{ a with sr := some e, p := p' }, by simp [(List.getElem?_eq_some_iff.1 ha).1], rfl, .inr ⟨List.mem_of_getElem? hr, het, by rw [haddr, hb2], rfl, d1, d2, hd1, hd2, hp'⟩⟩
                          · exact ⟨x, by simp [List.getElem?_set, hrq, hx], rfl, .inl rfl⟩
                      · rename_i hx
                        simp only [Go.ok.injEq, Prod.mk.injEq] at hh
                        obtain ⟨rfl, rfl⟩ := hh
                        rw [hx]
                        exact ⟨⟨_, rfl, rfl, rfl⟩, hi, hsame, by simp⟩
                      · simp at hh
                    · simp at hh
                  · simp at hh
                · rename_i hs
                  simp only [Go.ok.injEq, Prod.mk.injEq] at hh
                  obtain ⟨rfl, rfl⟩ := hh
                  rw [show h.view.last = h.last from rfl, hs]
                  exact ⟨⟨_, rfl, rfl, rfl⟩, hi, hsame, by simp⟩
                · simp at hh
          · rename_i h3
            rw [if_neg h3]
            split at hh
            · rename_i h4
              rw [if_pos h4]
              split at hh
              · simp at hh
              · rename_i hx
                rw [hx]
                simp only [Go.ok.injEq, Prod.mk.injEq] at hh
                obtain ⟨rfl, rfl⟩ := hh
                exact ⟨⟨_, rfl, rfl, rfl⟩, hi, hsame, by simp⟩
              · rename_i a ha
                rw [ha]
                simp only [Go.ok.injEq, Prod.mk.injEq] at hh
                obtain ⟨rfl, rfl⟩ := hh
                obtain ⟨g1, g2⟩ := handle_append n0 h hi a
                exact ⟨⟨_, rfl, g2, by simp⟩, g1, hgrow _, fun r hr => by simp only [Option.some.injEq] at hr; subst hr; simp⟩
            · rename_i h4
              rw [if_neg h4]
              simp only [Go.ok.injEq, Prod.mk.injEq] at hh
              obtain ⟨rfl, rfl⟩ := hh
              exact ⟨⟨_, rfl, rfl, rfl⟩, hi, hsame, by simp⟩

theorem run_inv' (n0 : Nat) (es : List Bytes) : ∀ (h : Heap), HInv n0 h → ∀ (h' : Heap) (os : List Nat), h.run es = .ok (h', os) →
    HInv n0 h' ∧ (∃ as, run h.view es = .ok (h'.view, as) ∧ as.length = os.length) ∧
    (∀ r a, h.objs[r]? = some a → ∃ a', h'.objs[r]? = some a' ∧ a'.e = a.e ∧ (a' = a ∨
      (n0 ≤ r ∧ (eventType a.e 0 = .ok 0x00 ∨ eventType a.e 0 = .ok 0x02) ∧ ∃ e ∈ es, eventType e 0 = .ok 0x04 ∧ addrOf e = addrOf a.e ∧ a'.sr = some e ∧
        ∃ d d', data a.e 0 = .ok d ∧ data e 0 = .ok d' ∧ newRawPacket [d, d'] = .ok a'.p))) := by
  induction es with
  | nil =>
    intro h hi h' os hr
    simp only [Heap.run, Go.ok.injEq, Prod.mk.injEq] at hr
    obtain ⟨rfl, rfl⟩ := hr
    exact ⟨hi, ⟨[], rfl, rfl⟩, fun r a ha => ⟨a, ha, rfl, .inl rfl⟩⟩
  | cons e es ih =>
    intro h hi h' os hr
    simp only [Heap.run] at hr
    split at hr
    · rename_i h1 o hh
      split at hr
      · rename_i h2 os2 hr2
        simp only [Go.ok.injEq, Prod.mk.injEq] at hr
        obtain ⟨rfl, rfl⟩ := hr
        obtain ⟨⟨out, e1, e2, e3⟩, i1, k1, k3⟩ := heap_step n0 h hi e h1 o hh
        obtain ⟨i2, ⟨as, r2, l2⟩, k2⟩ := ih h1 i1 h2 os2 hr2
        refine ⟨i2, ⟨out.sent.toList ++ as, ?_, ?_⟩, ?_⟩
        · simp only [run, e1, ← e2, r2]
        · rw [List.length_append, List.length_append, l2]
          cases o with
          | none => simp [e3]
          | some r =>
            have := (k3 r rfl).1
            simp [e3, List.getElem?_eq_getElem this]
        · intro r a ha
          obtain ⟨a1, ha1, k4, k5⟩ := k1 r a ha
          obtain ⟨a2, ha2, k6, k7⟩ := k2 r a1 ha1
          refine ⟨a2, ha2, by rw [k6, k4], ?_⟩
          rcases k7 with rfl | ⟨q1, q2, e', q3, q4, q5, q6, q7⟩
          · rcases k5 with rfl | ⟨q1, q2, q3, q4, q5⟩
            · exact .inl rfl
            · obtain ⟨i, hii⟩ := List.mem_iff_getElem?.1 q1
              obtain ⟨w1, b, hb, w2⟩ := hi.valid i r hii
              rw [ha] at hb
              simp only [Option.some.injEq] at hb
              subst hb
              exact .inr ⟨w1, w2, e, by simp, q2, q3, q4, q5⟩
          · rw [k4] at q2 q5 q7
            exact .inr ⟨q1, q2, e', by simp [q3], q4, q5, q6, q7⟩
      · simp at hr
      · simp at hr
    · simp at hr
    · simp at hr

end AdvViewAux

/-- **C117** The advertisements an application receives are those the history of AdvHist.lean delivers (C33, C34), as many and the same when they are delivered. -/
theorem heap_is_history (objs : List Adv) (es : List Bytes) (h : Heap) (os : List Nat) (hr : Heap.run (Heap.started objs) es = .ok (h, os)) :
    ∃ as, run started es = .ok (h.view, as) ∧ as.length = os.length := by
  obtain ⟨-, ⟨as, h1, h2⟩, -⟩ := run_inv' objs.length es _ (HInv_started objs) h os hr
  refine ⟨as, ?_, h2⟩
  rw [← h1]
  congr 1

/-- **C117** An advertisement that exists, whoever has it, still exists after any further events, for the same event: its address, types, connectability, signal strength and advertising data never change. Nothing else about it
changes either, except that a scan response from the same address may be added to it, if it was made in this scan and is connectable or scannable undirected: then its decoded content is that of its data followed by the data of such a
response. Missing: the content of advertisements a scan response is added to (`advertisement_changes`: false). -/
theorem handed_out_stable_partial (objs : List Adv) (es : List Bytes) (h : Heap) (os : List Nat) (hr : Heap.run (Heap.started objs) es = .ok (h, os))
    (es' : List Bytes) (h' : Heap) (os' : List Nat) (hr' : h.run es' = .ok (h', os')) (r : Nat) (a : Adv) (ha : h.objs[r]? = some a) :
    ∃ a', h'.objs[r]? = some a' ∧ aAddr a' = aAddr a ∧ aAddrType a' = aAddrType a ∧ aEventType a' = aEventType a ∧ aConnectable a' = aConnectable a ∧ aRSSI a' = aRSSI a ∧ a'.data = a.data ∧
      (a' = a ∨ (objs.length ≤ r ∧ (aEventType a = .ok 0x00 ∨ aEventType a = .ok 0x02) ∧ ∃ e ∈ es', eventType e 0 = .ok 0x04 ∧ addrOf e = addrOf a.e ∧ a'.sr = some e ∧
        ∃ d', data e 0 = .ok d' ∧ newRawPacket [a.data, d'] = .ok a'.p)) := by
  obtain ⟨hi, -, -⟩ := run_inv' objs.length es _ (HInv_started objs) h os hr
  obtain ⟨-, -, h1⟩ := run_inv' objs.length es' h hi h' os' hr'
  obtain ⟨a', h2, h3, h4⟩ := h1 r a ha
  refine ⟨a', h2, by simp only [aAddr, h3], by simp only [aAddrType, h3], by simp only [aEventType, h3], by simp only [aConnectable, aEventType, h3], by simp only [aRSSI, h3], by simp only [Adv.data, h3], ?_⟩
  rcases h4 with h4 | ⟨q1, q2, e, q3, q4, q5, q6, d, d', q7, q8, q9⟩
  · exact .inl h4
  · exact .inr ⟨q1, q2, e, q3, q4, q5, q6, d', q8, by simp only [Adv.data, q7]; exact q9⟩

/-- **C117** Every report that is no scan response is handed out as an advertisement of its own, not shared with any that existed before. -/
theorem fresh_object (objs : List Adv) (es : List Bytes) (h : Heap) (os : List Nat) (hr : Heap.run (Heap.started objs) es = .ok (h, os)) (e : Bytes) (h' : Heap) (r : Nat) (hh : h.handle e = .ok (h', some r))
    (ht : eventType e 0 ≠ .ok 0x04) : r = h.objs.length := by
  obtain ⟨hi, -, -⟩ := run_inv' objs.length es _ (HInv_started objs) h os hr
  exact ((heap_step _ h hi e h' (some r) hh).2.2.2 r rfl).2.resolve_right ht

/-- Without scan responses nothing that was handed out ever changes. -/
theorem stable_without_responses (objs : List Adv) (es : List Bytes) (h : Heap) (os : List Nat) (hr : Heap.run (Heap.started objs) es = .ok (h, os))
    (es' : List Bytes) (h' : Heap) (os' : List Nat) (hr' : h.run es' = .ok (h', os')) (hs : ∀ e ∈ es', eventType e 0 ≠ .ok 0x04) (r : Nat) (a : Adv) (ha : h.objs[r]? = some a) :
    h'.objs[r]? = some a := by
  obtain ⟨a', h1, -, -, -, -, -, -, rfl | ⟨-, -, e, h2, h3, -⟩⟩ := handed_out_stable_partial objs es h os hr es' h' os' hr' r a ha
  · exact h1
  · exact absurd h3 (hs e h2)

set_option maxRecDepth 100000 in
/-- **C117: where it fails.** An advertisement and then the scan response of the same device: the application is handed the same advertisement twice, and what it was handed first has changed under its hands, at a time of the
controller's choosing and on another goroutine: it now has a scan response and the content of both. -/
theorem advertisement_changes (r r' : Report) (hr : r.Ok) (hr' : r'.Ok) (ht : r.evType = 0x00) (ht' : r'.evType = 0x04) (haddr : r'.addr = r.addr) (p p' q : Packet)
    (hp : newRawPacket [r.data] = .ok p) (hp' : newRawPacket [r'.data] = .ok p') (hq : newRawPacket [r.data, r'.data] = .ok q) :
    ∃ h1 h2, Heap.run (Heap.started []) [encodeRows [r]] = .ok (h1, [0]) ∧ h1.objs[0]? = some ⟨encodeRows [r], none, p⟩ ∧
      h1.run [encodeRows [r']] = .ok (h2, [0]) ∧ h2.objs[0]? = some ⟨encodeRows [r], some (encodeRows [r']), q⟩ := by
  obtain ⟨f1, f2, f3, f4, f5, f6, f7⟩ := single_report_fields r hr
  obtain ⟨g1, g2, g3, g4, g5, g6, g7⟩ := single_report_fields r' hr'
  have ha : newAdv (encodeRows [r]) = .ok ⟨encodeRows [r], none, p⟩ := (AdvAux.newAdv_ok_iff _ _).2 ⟨r.data, p, f6, hp, rfl⟩
  have ha' : newAdv (encodeRows [r']) = .ok ⟨encodeRows [r'], none, p'⟩ := (AdvAux.newAdv_ok_iff _ _).2 ⟨r'.data, p', g6, hp', rfl⟩
  have hA : addrOf (encodeRows [r]) = .ok r.addr := by simp only [addrOf]; erw [f4, Go.bind_ok, f3]; rfl
  have hA' : addrOf (encodeRows [r']) = .ok r.addr := by simp only [addrOf]; erw [g4, Go.bind_ok, g3, haddr]; rfl
  let h1 : Heap := { objs := [⟨encodeRows [r], none, p⟩], ring := (List.replicate 128 none).set 0 (some 0), last := 1 }
  have e1 : Heap.handle (Heap.started []) (encodeRows [r]) = .ok (h1, some 0) := by
    unfold Heap.handle
    rw [f1, f2, ht, ha]
    simp only [Heap.started, List.length_replicate, List.length_nil, List.nil_append, ne_eq, not_true_eq_false, if_false, true_or, if_true, Nat.zero_lt_succ]
    rfl
  have hset : setScanResponse ⟨encodeRows [r], none, p⟩ ⟨encodeRows [r'], none, p'⟩ = .ok ⟨encodeRows [r], some (encodeRows [r']), q⟩ :=
    (AdvAux.setScanResponse_ok_iff _ _ _).2 ⟨r.data, r'.data, q, f6, g6, hq, rfl⟩
  have hs : search h1.view.ring h1.last r.addr (h1.ring.length + 1) ((h1.last : Int) - 1) = some (.at 0) := by
    have h0 : h1.view.ring[0]? = some (some ⟨encodeRows [r], none, p⟩) := rfl
    unfold search
    rw [if_neg (by show ¬ ((1 : Int) - 1 = 1); omega)]
    simp only [show ((h1.last : Nat) : Int) - 1 = 0 from rfl]
    simp [h0, hA]
  have e2 : h1.handle (encodeRows [r']) = .ok ({ h1 with objs := [⟨encodeRows [r], some (encodeRows [r']), q⟩] }, some 0) := by
    unfold Heap.handle
    rw [g1, g2, ht', ha']
    simp only [hA', hs, show h1.ring[0]? = some (some 0) from rfl, show h1.objs[0]? = some ⟨encodeRows [r], none, p⟩ from rfl, hset]
    rfl
  exact ⟨h1, _, by simp only [Heap.run, e1]; rfl, rfl, by simp only [Heap.run, e2]; rfl, rfl⟩

/-- It happens: a name comes up in an advertisement that had none. -/
example : ∃ p p' q, newRawPacket [[2, 1, 6]] = .ok p ∧ newRawPacket [[2, 9, 65]] = .ok p' ∧ newRawPacket [[2, 1, 6], [2, 9, 65]] = .ok q ∧ (p.m.getD {}).localName = none ∧ (q.m.getD {}).localName = some [65] :=
  ⟨_, _, _, by simp [newRawPacket, adParse, adParseLoop, slice, adRecord, pduDecode, writeOrAppend, Go.bind]; rfl, by simp [newRawPacket, adParse, adParseLoop, slice, adRecord, pduDecode, writeOrAppend, Go.bind]; rfl,
    by simp [newRawPacket, adParse, adParseLoop, slice, adRecord, pduDecode, writeOrAppend, Go.bind]; rfl, rfl, rfl⟩

end Ble.Props
