import Verif.Client.AirSub
import Verif.Props.Air
import Verif.Props.Cccd
import Verif.Props.Subscriptions
set_option autoImplicit false

/-!
# Subscriptions and values over the air (C179)
-/

namespace Ble.AirSub

open Ble.Att Ble.Client Ble.L2cap Ble.Air Ble.Spec Ble.Props

variable {α : Type}

/-! ## Specification -/

/-- The characteristic has the property and its handler. -/
def Supports (r : CharRef) (ind : Bool) : Prop :=
  if ind then r.prop &&& 0x20 ≠ 0 ∧ r.hasIndicate = true else r.prop &&& 0x10 ≠ 0 ∧ r.hasNotify = true

/-- `D` are the characteristics of the table that have a CCCD, each once, as the client has discovered them. -/
structure IsTable (db : DB (CState α)) (D : Chr → Prop) : Prop where
  cccd : ∀ c, D c → c.cccdh < 65536 ∧ c.vh < 65536 ∧ ∃ a, db.at c.cccdh = some a ∧ a.wh = some (cccdWrite c.ref)
  uniq : ∀ c c', D c → D c' → c.ref.handle = c'.ref.handle → c = c'

/-- What happens: the active subscriptions of the client, the subscriptions that were ever made, and what the handlers were called with. -/
structure View where
  active : Active := fun _ _ => none
  made : List (Nat × Bool) := []
  got : List (Nat × Bytes) := []

/-- The handler for a value: that of indications for an indication, if there is one; otherwise that of notifications. -/
def handlerFor (a : Active) (vh : Nat) (ind : Bool) : Option Nat := (if ind then a vh true else none) <|> a vh false

/-- What the operations mean, with the MTU `m`: a subscription that is new is made, an active one kept; unsubscribing ends it; a value goes to the subscribed handler, cut to the MTU less three. -/
def View.step (m : Nat) (v : View) : Op α → View
  | .subscribe c ind h => if (v.active c.vh ind).isSome then v else { v with active := v.active.set c.vh ind (some h), made := v.made ++ [(c.vh, ind)] }
  | .unsubscribe c ind => { v with active := v.active.set c.vh ind none }
  | .clear order => { v with active := fun k i => if k ∈ order then none else v.active k i }
  | .app _ => v
  | .value k data =>
    match v.made[k]? with
    | none => v
    | some (vh, ind) => { v with got := v.got ++ ((handlerFor v.active vh ind).map fun h => (h, data.take (m - 3))).toList }

def viewAfter (m : Nat) (ops : List (Op α)) : View := ops.foldl (View.step m) {}

/-- The client subscribes to what the characteristics offer. -/
def Offered (D : Chr → Prop) : Op α → Prop
  | .subscribe c ind _ => D c ∧ Supports c.ref ind
  | .unsubscribe c _ => D c
  | _ => True

/-- The two ends of a new connection: nothing subscribed, the CCCDs zero; the MTU is whatever has been exchanged, within what the client can receive. -/
structure Fresh (L : Link) (db : DB (CState α)) (m : Nat) (e : Ends α) : Prop where
  subs : e.subs = fun _ => none
  got : e.got = []
  failed : e.failed = none
  st : ∃ a, e.cli.peer.1.st = CState.init a
  db : e.cli.peer.1.db = db
  mtu : e.cli.peer.1.mtu = m
  low : 23 ≤ m
  high : m ≤ L.cliRx
  tx : 5 ≤ e.cli.txMTU ∧ e.cli.txMTU ≤ L.cliTx
  buf : 5 ≤ e.cli.buf.length

/-! ## The invariant -/

structure Inv (L : Link) (db : DB (CState α)) (D : Chr → Prop) (m : Nat) (v : View) (e : Ends α) : Prop where
  gone : ∀ vh, e.subs vh = none → ∀ i, v.active vh i = none
  here : ∀ vh s, e.subs vh = some s → (∃ c, D c ∧ c.vh = vh ∧ s.cccdh = c.cccdh) ∧ s.nHandler = v.active vh false ∧ s.iHandler = v.active vh true ∧
    s.ccc = cccBits v.active vh
  supp : ∀ c, D c → ∀ i, (v.active c.vh i).isSome = true → Supports c.ref i
  ccc : ∀ c, D c → e.cli.peer.1.st.cccs c.ref.handle = (cccBits v.active c.vh).toNat
  tracks : Tracks (bitsOf e.cli.peer.1.st) e.cli.peer.1.st
  ntfs : e.cli.peer.1.st.ntfs.map (fun n => (n.char + 1, n.ind)) = v.made
  vhs : ∀ x ∈ v.made, x.1 < 65536
  got : e.got = v.got
  failed : e.failed = none
  db : e.cli.peer.1.db = db
  mtu : e.cli.peer.1.mtu = m
  tx : 5 ≤ e.cli.txMTU ∧ e.cli.txMTU ≤ L.cliTx
  buf : 5 ≤ e.cli.buf.length

theorem inv_init {L : Link} {db : DB (CState α)} {D : Chr → Prop} {m : Nat} {e : Ends α} (h : Fresh L db m e) : Inv L db D m {} e := by
  obtain ⟨a, ha⟩ := h.st
  exact {
    gone := fun _ _ _ => rfl
    here := fun vh s hs => by rw [h.subs] at hs; cases hs
    supp := fun _ _ _ hh => by cases hh
    ccc := fun c _ => by rw [ha]; rfl
    tracks := by rw [ha]; exact tracks_init a
    ntfs := by rw [ha]; rfl
    vhs := by intro x hx; cases hx
    got := h.got, failed := h.failed, db := h.db, mtu := h.mtu, tx := h.tx, buf := h.buf }

/-! ## One write of a CCCD -/

theorem bits_toNat (a : Active) (vh : Nat) (i : Bool) : cccBit (cccBits a vh).toNat i = (a vh i).isSome := by
  unfold cccBits cccBit
  cases i <;> cases h1 : a vh false <;> cases h2 : a vh true <;> simp only [Option.isSome_some, Option.isSome_none, if_true, if_false, Bool.false_eq_true] <;> decide

theorem bits_lt (a : Active) (vh : Nat) : (cccBits a vh).toNat < 4 := by
  unfold cccBits
  cases h1 : a vh false <;> cases h2 : a vh true <;> simp only [Option.isSome_some, Option.isSome_none, if_true, if_false, Bool.false_eq_true] <;> decide

private theorem close_keys (l : List Ntf) (k : Nat) : (closeNtf l k).map (fun n => (n.char + 1, n.ind)) = l.map (fun n => (n.char + 1, n.ind)) := by
  unfold closeNtf
  apply List.ext_getElem?
  intro j
  simp only [List.getElem?_map, List.getElem?_modify]
  cases l[j]? with
  | none => rfl
  | some n => simp only [Option.map_some]; split <;> rfl

/-- A write whose bits the characteristic supports is accepted. -/
theorem cccd_accepts (c : CharRef) (st : CState α) (v : Nat) (hv : v < 65536) (ht : Tracks (bitsOf st) st) (hs : ∀ i, cccBit v i = true → Supports c i) :
    ∃ st', cccdWrite c st (put16 v) = .ok (st', 0) ∧ Tracks (bitsOf st') st' ∧ st'.cccs = upd st.cccs c.handle v ∧
      st'.ntfs.map (fun n => (n.char + 1, n.ind)) = st.ntfs.map (fun n => (n.char + 1, n.ind)) ++
        (if cccBit v false = true ∧ cccBit (st.cccs c.handle) false = false then [(c.handle + 1, false)] else []) ++
        (if cccBit v true = true ∧ cccBit (st.cccs c.handle) true = false then [(c.handle + 1, true)] else []) := by
  have hle : le16At (ε := Empty) (put16 v) 0 = .ok v := by simp [le16At, put16, le16_put16 v hv]
  -- the notify half
  have h1 : ∃ st1, cccdNotifyPart c (decide (st.cccs c.handle % 2 = 1)) (decide (v % 2 = 1)) st = .ok (some st1) := by
    unfold cccdNotifyPart
    by_cases hn : v % 2 = 1 <;> by_cases ho : st.cccs c.handle % 2 = 1
    · exact ⟨_, by simp [hn, ho]; rfl⟩
    · have := hs false (by simp [cccBit, hn])
      simp only [Supports, Bool.false_eq_true, if_false] at this
      refine ⟨{ st with nn := upd st.nn c.handle (some st.ntfs.length), ntfs := st.ntfs ++ [⟨c.handle, false, true⟩] }, ?_⟩
      simp only [hn, ho, decide_true, decide_false, Bool.not_false, Bool.and_self, if_true, cccdStartNotify, this.1, this.2, if_false]
    · obtain ⟨k, hk, -⟩ := (ht c.handle false).2 (by simp [bitsOf, cccBit, ho])
      refine ⟨{ st with ntfs := closeNtf st.ntfs k }, ?_⟩
      simp only [hn, ho, decide_true, decide_false, Bool.not_false, Bool.not_true, Bool.and_true, Bool.and_false, if_true, Bool.false_eq_true, if_false, closeAt]
      rw [show st.nn c.handle = some k from hk]
      rfl
    · exact ⟨_, by simp [hn, ho]; rfl⟩
  obtain ⟨st1, h1⟩ := h1
  have n1 := notifyPart_some h1
  have e1 : decide (st.cccs c.handle % 2 = 1) = bitsOf st c.handle false := by simp [bitsOf, cccBit]
  have t1 := tracks_notify ht (e1 ▸ h1)
  have h2 : ∃ st2, cccdIndicatePart c (decide (st.cccs c.handle / 2 % 2 = 1)) (decide (v / 2 % 2 = 1)) st1 = .ok (some st2) := by
    unfold cccdIndicatePart
    by_cases hn : v / 2 % 2 = 1 <;> by_cases ho : st.cccs c.handle / 2 % 2 = 1
    · exact ⟨_, by simp [hn, ho]; rfl⟩
    · have := hs true (by simp [cccBit, hn])
      simp only [Supports, if_true] at this
      refine ⟨{ st1 with ind := upd st1.ind c.handle (some st1.ntfs.length), ntfs := st1.ntfs ++ [⟨c.handle, true, true⟩] }, ?_⟩
      simp only [hn, ho, decide_true, decide_false, Bool.not_false, Bool.and_self, if_true, cccdStartIndicate, this.1, this.2, if_false]
    · obtain ⟨k, hk, -⟩ := (t1 c.handle true).2 (by simp [setBit, bitsOf, cccBit, ho])
      refine ⟨{ st1 with ntfs := closeNtf st1.ntfs k }, ?_⟩
      simp only [hn, ho, decide_true, decide_false, Bool.not_false, Bool.not_true, Bool.and_true, Bool.and_false, if_true, Bool.false_eq_true, if_false, closeAt]
      rw [show st1.ind c.handle = some k from hk]
      rfl
    · exact ⟨_, by simp [hn, ho]; rfl⟩
  obtain ⟨st2, h2⟩ := h2
  have n2 := indicatePart_some h2
  have hw : cccdWrite c st (put16 v) = .ok ({ st2 with cccs := upd st2.cccs c.handle v }, 0) := by
    unfold cccdWrite
    rw [hle]
    simp only [Go.bind_ok]
    rw [h1]
    simp only [Go.bind_ok]
    rw [h2]
    rfl
  refine ⟨_, hw, ?_, ?_, ?_⟩
  · refine tracks_history (refs := fun _ => True) (evs := [(c, put16 v)]) (Evolves.write Evolves.start trivial hw) ht ?_
    intro ev hev hb
    simp only [List.mem_singleton] at hev
    subst hev
    have e : cccValue (put16 v) = v := le16_put16 v hv
    rw [e] at hb
    have := hs true (by simp [cccBit, hb])
    exact this.1
  · show upd st2.cccs c.handle v = _
    rw [n2.2.1, n1.2.1]
  · show st2.ntfs.map _ = _
    have k1 : st1.ntfs.map (fun n => (n.char + 1, n.ind)) = st.ntfs.map (fun n => (n.char + 1, n.ind)) ++
        (if cccBit v false = true ∧ cccBit (st.cccs c.handle) false = false then [(c.handle + 1, false)] else []) := by
      simp only [cccBit, Bool.false_eq_true, if_false]
      rcases n1.2.2.2 with ⟨a, b, rfl⟩ | ⟨a, b, k, -, rfl⟩ | ⟨a, rfl⟩
      · rw [if_pos ⟨a, b⟩]; simp
      · rw [if_neg (by simp [a, b]), close_keys]; simp
      · rw [if_neg (by rw [a]; simp)]; simp
    have k2 : st2.ntfs.map (fun n => (n.char + 1, n.ind)) = st1.ntfs.map (fun n => (n.char + 1, n.ind)) ++
        (if cccBit v true = true ∧ cccBit (st.cccs c.handle) true = false then [(c.handle + 1, true)] else []) := by
      simp only [cccBit, if_true]
      rcases n2.2.2.2 with ⟨a, b, rfl⟩ | ⟨a, b, k, -, rfl⟩ | ⟨a, rfl⟩
      · rw [if_pos ⟨a, b⟩]; simp
      · rw [if_neg (by simp [a, b]), close_keys]; simp
      · rw [if_neg (by rw [a]; simp)]; simp
    rw [k2, k1]

/-- The same over the air. -/
theorem air_cccd_write {L : Link} (hL : L.Ok) {radio : Radio} (hr : Faithful radio) {scratch : Nat → Bytes} (hsc : ∀ k, (scratch k).length = 515)
    {db : DB (CState α)} {D : Chr → Prop} (hD : IsTable db D) {m : Nat} (hm : 23 ≤ m) (hmr : m ≤ L.cliRx) {v : View} {e : Ends α} (hi : Inv L db D m v e)
    (c : Chr) (hc : D c) (n : UInt16) (hs : ∀ i, cccBit n.toNat i = true → Supports c.ref i) :
    ∃ (c' : Cli (Server (CState α) × Nat)) (st' : CState α), write (airPeer L radio scratch) e.cli c.cccdh (put16 n.toNat) = .ok c' ∧ c'.peer.1 = { e.cli.peer.1 with st := st' } ∧
      c'.txMTU = e.cli.txMTU ∧ 5 ≤ c'.buf.length ∧ Tracks (bitsOf st') st' ∧ st'.cccs = upd e.cli.peer.1.st.cccs c.ref.handle n.toNat ∧
      st'.ntfs.map (fun n => (n.char + 1, n.ind)) = e.cli.peer.1.st.ntfs.map (fun n => (n.char + 1, n.ind)) ++
        (if cccBit n.toNat false = true ∧ cccBit (e.cli.peer.1.st.cccs c.ref.handle) false = false then [(c.vh, false)] else []) ++
        (if cccBit n.toNat true = true ∧ cccBit (e.cli.peer.1.st.cccs c.ref.handle) true = false then [(c.vh, true)] else []) := by
  obtain ⟨hh, -, a, ha, hw⟩ := hD.cccd c hc
  obtain ⟨st', h1, h2, h3, h4⟩ := cccd_accepts c.ref e.cli.peer.1.st n.toNat n.toNat_lt hi.tracks hs
  rw [← hi.db] at ha
  have hq : handleRequest e.cli.peer.1 (0x12 :: (put16 c.cccdh ++ put16 n.toNat)) = .ok ({ e.cli.peer.1 with st := st' }, some [0x13]) := by
    have := write_request_delivers e.cli.peer.1 c.cccdh hh (put16 n.toNat) a _ st' 0 ha hw h1
    simpa using this
  have hx := hL.cliTx
  have hy := hL.srvRx
  have hz := hL.cliRx
  have htx := hi.tx
  have hmm := hi.mtu
  have hlen : (0x12 :: (put16 c.cccdh ++ put16 n.toNat)).length = 5 := by simp
  have hex : airPeer L radio scratch e.cli.peer (0x12 :: (put16 c.cccdh ++ put16 n.toNat)) = .ok (({ e.cli.peer.1 with st := st' }, e.cli.peer.2 + 2), [0x13]) := by
    unfold airPeer
    rw [transfer_delivers hr _ _ _ _ _ _ _ (0x12 :: (put16 c.cccdh ++ put16 n.toNat)) hL.cliHandle hL.cliBuf.1 hL.cliBuf.2 hL.cliBufs (by omega) (by omega) (by omega) (hsc _)]
    simp only [hq]
    rw [transfer_delivers hr _ _ _ _ _ _ _ [0x13] hL.srvHandle hL.srvBuf.1 hL.srvBuf.2 hL.srvBufs (by simp; omega) (by simp; omega) (by simp) (hsc _)]
    rfl
  have hsend := send_ok (c := e.cli) (req := 0x12 :: (put16 c.cccdh ++ put16 n.toNat)) (by rw [hlen]; exact hi.buf) hex
  refine ⟨⟨({ e.cli.peer.1 with st := st' }, e.cli.peer.2 + 2),
    (0x12 :: (put16 c.cccdh ++ put16 n.toNat)) ++ e.cli.buf.drop (0x12 :: (put16 c.cccdh ++ put16 n.toNat)).length, e.cli.txMTU, e.cli.rxMTU⟩, st', ?_, rfl, rfl, ?_, h2, h3, h4⟩
  · unfold write
    rw [if_neg (by simp only [put16_length]; omega), hsend]
    rfl
  · have := hi.buf
    simp only [List.length_append, List.length_drop]
    omega

/-! ## Steps -/

section
variable {L : Link} (hL : L.Ok) {radio : Radio} (hr : Faithful radio) {scratch : Nat → Bytes} (hsc : ∀ k, (scratch k).length = 515)
    {db : DB (CState α)} {D : Chr → Prop} (hD : IsTable db D) {m : Nat} (hm : 23 ≤ m) (hmr : m ≤ L.cliRx)
include hL hr hsc hD hm hmr

theorem inv_update {v : View} {e : Ends α} (hi : Inv L db D m v e) (c : Chr) (hc : D c) (a' : Active) (made' : List (Nat × Bool)) (cli' : Cli (Server (CState α) × Nat)) (st' : CState α) (o : Option Sub)
    (ho : ∀ s, o = some s → s.cccdh = c.cccdh ∧ s.nHandler = a' c.vh false ∧ s.iHandler = a' c.vh true ∧ s.ccc = cccBits a' c.vh)
    (hn : o = none → ∀ i, a' c.vh i = none)
    (hother : ∀ k i, k ≠ c.vh → a' k i = v.active k i) (hsupp : ∀ i, (a' c.vh i).isSome = true → Supports c.ref i)
    (hp : cli'.peer.1 = { e.cli.peer.1 with st := st' }) (htx : cli'.txMTU = e.cli.txMTU) (hb : 5 ≤ cli'.buf.length) (ht : Tracks (bitsOf st') st')
    (hccc : st'.cccs = upd e.cli.peer.1.st.cccs c.ref.handle (cccBits a' c.vh).toNat)
    (hmade : st'.ntfs.map (fun n => (n.char + 1, n.ind)) = made') (hvhs : ∀ x ∈ made', x.1 < 65536) :
    Inv L db D m { v with active := a', made := made' } { e with subs := e.subs.set c.vh o, cli := cli' } := by
  have hvh : ∀ d, D d → d ≠ c → d.vh ≠ c.vh := by
    intro d hd hne heq
    apply hne
    apply hD.uniq d c hd hc
    unfold Chr.vh at heq
    omega
  refine ⟨?_, ?_, ?_, ?_, ?_, ?_, hvhs, hi.got, hi.failed, ?_, ?_, ?_, hb⟩
  · intro k hk i
    simp only [Subs.set] at hk
    split at hk
    · rename_i hkk; subst hkk; exact hn hk i
    · rename_i hkk
      show a' k i = none
      rw [hother k i hkk]; exact hi.gone k hk i
  · intro k s hk
    simp only [Subs.set] at hk
    show _ ∧ s.nHandler = a' k false ∧ s.iHandler = a' k true ∧ s.ccc = cccBits a' k
    split at hk
    · rename_i hkk
      subst hkk
      obtain ⟨x1, x2, x3, x4⟩ := ho s hk
      exact ⟨⟨c, hc, rfl, x1⟩, x2, x3, x4⟩
    · rename_i hkk
      obtain ⟨y1, y2, y3, y4⟩ := hi.here k s hk
      rw [hother k false hkk, hother k true hkk, cccBits_congr (fun i => hother k i hkk)]
      exact ⟨y1, y2, y3, y4⟩
  · intro d hd i hh
    change (a' d.vh i).isSome = true at hh
    by_cases hdc : d = c
    · subst hdc; exact hsupp i hh
    · rw [hother _ i (hvh d hd hdc)] at hh
      exact hi.supp d hd i hh
  · intro d hd
    show cli'.peer.1.st.cccs d.ref.handle = (cccBits a' d.vh).toNat
    rw [hp]
    show st'.cccs d.ref.handle = _
    rw [hccc]
    by_cases hdc : d = c
    · subst hdc; simp [upd]
    · have : d.ref.handle ≠ c.ref.handle := fun h => hdc (hD.uniq d c hd hc h)
      simp only [upd, if_neg this]
      rw [hi.ccc d hd, cccBits_congr (fun i => hother d.vh i (hvh d hd hdc))]
  · show Tracks (bitsOf cli'.peer.1.st) cli'.peer.1.st
    rw [hp]; exact ht
  · show cli'.peer.1.st.ntfs.map _ = _
    rw [hp]; exact hmade
  · show cli'.peer.1.db = db
    rw [hp]; exact hi.db
  · show cli'.peer.1.mtu = m
    rw [hp]; exact hi.mtu
  · show 5 ≤ cli'.txMTU ∧ cli'.txMTU ≤ L.cliTx
    rw [htx]; exact hi.tx

/-- The entry of a characteristic, or a new one. -/
theorem entry_of {v : View} {e : Ends α} (hi : Inv L db D m v e) (c : Chr) (hc : D c) :
    ∃ s, (e.subs c.vh).getD { cccdh := c.cccdh } = s ∧ s.cccdh = c.cccdh ∧ s.nHandler = v.active c.vh false ∧ s.iHandler = v.active c.vh true ∧ s.ccc = cccBits v.active c.vh := by
  cases hs : e.subs c.vh with
  | none =>
    have hg := hi.gone _ hs
    refine ⟨_, rfl, rfl, (hg false).symm, (hg true).symm, ?_⟩
    rw [cccBits_none hg]; rfl
  | some s =>
    obtain ⟨⟨d, hd, hdv, hdc⟩, h2, h3, h4⟩ := hi.here _ _ hs
    have : d = c := hD.uniq d c hd hc (by unfold Chr.vh at hdv; omega)
    subst this
    exact ⟨s, rfl, hdc, h2, h3, h4⟩

/-- A call that changes nothing but may make an entry. -/
theorem inv_keep {v : View} {e : Ends α} (hi : Inv L db D m v e) (c : Chr) (hc : D c) (s : Sub) (h1 : s.cccdh = c.cccdh) (h2 : s.nHandler = v.active c.vh false)
    (h3 : s.iHandler = v.active c.vh true) (h4 : s.ccc = cccBits v.active c.vh) : Inv L db D m v { e with subs := e.subs.set c.vh (some s) } := by
  refine ⟨?_, ?_, hi.supp, hi.ccc, hi.tracks, hi.ntfs, hi.vhs, hi.got, hi.failed, hi.db, hi.mtu, hi.tx, hi.buf⟩
  · intro k hk
    simp only [Subs.set] at hk
    split at hk
    · cases hk
    · exact hi.gone k hk
  · intro k t hk
    simp only [Subs.set] at hk
    split at hk
    · rename_i hkk
      injection hk with hk
      subst hk hkk
      exact ⟨⟨c, hc, rfl, h1⟩, h2, h3, h4⟩
    · exact hi.here k t hk

theorem set_supp {v : View} {e : Ends α} (hi : Inv L db D m v e) (c : Chr) (hc : D c) (ind : Bool) (h : Option Nat) (hs : h.isSome = true → Supports c.ref ind) (i : Bool)
    (hh : (v.active.set c.vh ind h c.vh i).isSome = true) : Supports c.ref i := by
  simp only [Active.set, true_and] at hh
  split at hh
  · rename_i he; subst he; exact hs hh
  · exact hi.supp c hc i hh

theorem step_subscribe {v : View} {e : Ends α} (hi : Inv L db D m v e) (c : Chr) (hc : D c) (ind : Bool) (h : Nat) (hs : Supports c.ref ind) :
    ∃ e', step L radio scratch e (.subscribe c ind h) = some e' ∧ Inv L db D m (v.step (α := α) m (.subscribe c ind h)) e' := by
  obtain ⟨s, h0, h1, h2, h3, h4⟩ := entry_of hL hr hsc hD hm hmr hi c hc
  have hstep : step L radio scratch e (.subscribe c ind h) = setSub (airPeer L radio scratch) e c.cccdh c.vh ind (some h) := by
    unfold step; rw [hi.failed]; rfl
  rw [hstep]
  unfold setSub
  simp only [View.step]
  by_cases hz : s.ccc &&& cccFlag ind = 0
  · have hnone : v.active c.vh ind = none := by rw [h4] at hz; exact (cccBits_flag _ _ _).1 hz
    rw [setHandlers_on e.subs c.cccdh c.vh ind h true s h0 hz]
    simp only
    have hv : s.ccc ||| cccFlag ind = cccBits (v.active.set c.vh ind (some h)) c.vh := by rw [h4, cccBits_on]
    rw [hv, h1]
    have hsupp := set_supp hL hr hsc hD hm hmr hi c hc ind (some h) (fun _ => hs)
    obtain ⟨c', st', w1, w2, w3, w4, w5, w6, w7⟩ := air_cccd_write hL hr hsc hD hm hmr hi c hc (cccBits (v.active.set c.vh ind (some h)) c.vh)
      (fun i hb => hsupp i (by rw [bits_toNat] at hb; exact hb))
    rw [w1]
    refine ⟨_, rfl, ?_⟩
    rw [if_neg (by rw [hnone]; simp), if_pos trivial]
    refine inv_update hL hr hsc hD hm hmr hi c hc _ _ c' st' _ ?_ (fun h => by cases h) ?_ hsupp w2 w3 w4 w5 w6 ?_ (by
      intro x hx
      rcases List.mem_append.1 hx with hx | hx
      · exact hi.vhs x hx
      · simp only [List.mem_singleton] at hx
        subst hx
        exact (hD.cccd c hc).2.1)
    · intro t ht
      injection ht with ht
      subst ht
      refine ⟨rfl, ?_, ?_, rfl⟩
      · simp only [Active.set, true_and]; cases ind <;> simp [h2]
      · simp only [Active.set, true_and]; cases ind <;> simp [h3]
    · intro k i hk
      simp [Active.set, hk]
    · rw [w7, hi.ntfs, hi.ccc c hc]
      simp only [bits_toNat, Active.set, true_and]
      cases ind
      · have : v.active c.vh false = none := hnone
        cases hx : v.active c.vh true <;> simp [this, hx]
      · have : v.active c.vh true = none := hnone
        cases hx : v.active c.vh false <;> simp [this, hx]
  · have hsome : (v.active c.vh ind).isSome = true := by
      cases hx : v.active c.vh ind with
      | none => exact absurd (by rw [h4]; exact (cccBits_flag _ _ _).2 hx) hz
      | some _ => rfl
    rw [setHandlers_keep e.subs c.cccdh c.vh ind (some h) true s h0 (by simpa using hz), if_pos hsome]
    exact ⟨_, rfl, inv_keep hL hr hsc hD hm hmr hi c hc s h1 h2 h3 h4⟩

theorem set_none_same {v : View} {vh : Nat} {ind : Bool} (h : v.active vh ind = none) : v.active.set vh ind none = v.active := by
  funext k i
  simp only [Active.set]
  split
  · rename_i hk; rw [hk.1, hk.2, h]
  · rfl

theorem step_unsubscribe {v : View} {e : Ends α} (hi : Inv L db D m v e) (c : Chr) (hc : D c) (ind : Bool) :
    ∃ e', step L radio scratch e (.unsubscribe c ind) = some e' ∧ Inv L db D m (v.step (α := α) m (.unsubscribe c ind)) e' := by
  obtain ⟨s, h0, h1, h2, h3, h4⟩ := entry_of hL hr hsc hD hm hmr hi c hc
  have hstep : step L radio scratch e (.unsubscribe c ind) = setSub (airPeer L radio scratch) e c.cccdh c.vh ind none := by
    unfold step; rw [hi.failed]; rfl
  rw [hstep]
  unfold setSub
  simp only [View.step]
  by_cases hz : s.ccc &&& cccFlag ind = 0
  · have hnone : v.active c.vh ind = none := by rw [h4] at hz; exact (cccBits_flag _ _ _).1 hz
    rw [setHandlers_keep e.subs c.cccdh c.vh ind none true s h0 (by simpa using hz), set_none_same hL hr hsc hD hm hmr hnone]
    exact ⟨_, rfl, inv_keep hL hr hsc hD hm hmr hi c hc s h1 h2 h3 h4⟩
  · rw [setHandlers_off e.subs c.cccdh c.vh ind true s h0 hz]
    simp only
    have hv : s.ccc &&& ~~~cccFlag ind = cccBits (v.active.set c.vh ind none) c.vh := by rw [h4, cccBits_off]
    rw [hv, h1]
    have hsupp := set_supp hL hr hsc hD hm hmr hi c hc ind none (fun h => by cases h)
    obtain ⟨c', st', w1, w2, w3, w4, w5, w6, w7⟩ := air_cccd_write hL hr hsc hD hm hmr hi c hc (cccBits (v.active.set c.vh ind none) c.vh)
      (fun i hb => hsupp i (by rw [bits_toNat] at hb; exact hb))
    rw [w1]
    refine ⟨_, rfl, ?_⟩
    rw [if_pos trivial]
    refine inv_update hL hr hsc hD hm hmr hi c hc _ _ c' st' _ ?_ (fun h => by cases h) ?_ hsupp w2 w3 w4 w5 w6 ?_ hi.vhs
    · intro t ht
      injection ht with ht
      subst ht
      refine ⟨rfl, ?_, ?_, rfl⟩
      · simp only [Active.set, true_and]; cases ind <;> simp [h2]
      · simp only [Active.set, true_and]; cases ind <;> simp [h3]
    · intro k i hk
      simp [Active.set, hk]
    · rw [w7, hi.ntfs, hi.ccc c hc]
      simp only [bits_toNat, Active.set, true_and]
      cases ind
      · cases hx : v.active c.vh true <;> simp [hx]
      · cases hx : v.active c.vh false <;> simp [hx]

theorem step_clear {v : View} : ∀ (order : List Nat) {a : Active} {e : Ends α}, Inv L db D m { v with active := a } e → order.Nodup →
    (∀ vh ∈ order, (e.subs vh).isSome = true) →
    ∃ e', clearAll (airPeer L radio scratch) e order = some e' ∧ Inv L db D m { v with active := fun k i => if k ∈ order then none else a k i } e'
  | [], a, e, hi, _, _ => ⟨e, rfl, by simpa using hi⟩
  | vh :: vhs, a, e, hi, hn, ho => by
    have hv := ho vh (by simp)
    unfold clearAll
    cases hs : e.subs vh with
    | none => rw [hs] at hv; cases hv
    | some s =>
      obtain ⟨⟨c, hc, hcv, hcc⟩, h2, h3, h4⟩ := hi.here _ _ hs
      subst hcv
      simp only
      have hd0 : ∀ i, a.drop c.vh c.vh i = none := drop_self a c.vh
      have hb0 : cccBits (a.drop c.vh) c.vh = 0 := cccBits_none hd0
      obtain ⟨c', st', w1, w2, w3, w4, w5, w6, w7⟩ := air_cccd_write hL hr hsc hD hm hmr hi c hc (cccBits (a.drop c.vh) c.vh)
        (fun i hb => by rw [bits_toNat, hd0 i] at hb; cases hb)
      have hz : put16 (cccBits (a.drop c.vh) c.vh).toNat = [0, 0] := by rw [hb0]; rfl
      rw [hz, ← hcc] at w1
      rw [w1]
      simp only
      have hi' : Inv L db D m { v with active := a.drop c.vh } { e with subs := e.subs.set c.vh none, cli := c' } := by
        have := inv_update hL hr hsc hD hm hmr hi c hc (a.drop c.vh) v.made c' st' none (fun s h => by cases h) (fun _ i => hd0 i)
          (fun k i hk => drop_other hk i) (fun i h => by rw [hd0 i] at h; cases h) w2 w3 w4 w5 w6 ?_ hi.vhs
        · exact this
        · rw [w7, hi.ntfs, hb0]
          simp [cccBit]
      rw [List.nodup_cons] at hn
      obtain ⟨e', r1, r2⟩ := step_clear vhs hi' hn.2 (by
        intro k hk
        have hne : k ≠ c.vh := fun h => hn.1 (h ▸ hk)
        simp only [Subs.set, if_neg hne]
        exact ho k (List.mem_cons_of_mem _ hk))
      refine ⟨e', r1, ?_⟩
      have : (fun k i => if k ∈ c.vh :: vhs then none else a k i) = fun k i => if k ∈ vhs then none else a.drop c.vh k i := by
        funext k i
        simp only [List.mem_cons, Active.drop]
        by_cases h1 : k = c.vh <;> by_cases h2 : k ∈ vhs <;> simp [h1, h2]
      rw [this]
      exact r2

theorem step_value {v : View} {e : Ends α} (hi : Inv L db D m v e) (k : Nat) (n : Ntf) (hk : e.cli.peer.1.st.ntfs[k]? = some n) (data : Bytes) :
    ∃ e', step L radio scratch e (.value k data) = some e' ∧ Inv L db D m (v.step (α := α) m (.value k data)) e' := by
  have hmade : v.made[k]? = some (n.char + 1, n.ind) := by rw [← hi.ntfs, List.getElem?_map, hk]; rfl
  have hvh : n.char + 1 < 65536 := hi.vhs _ (List.mem_of_getElem? hmade)
  have hstep : step L radio scratch e (.value k data) = sendValue L radio scratch e n data := by
    unfold step
    rw [hi.failed]
    simp only [hk]
    rfl
  rw [hstep]
  have hz := hL.cliRx
  -- the PDU and its way
  have hpdu : (if n.ind = true then indicatePDU e.cli.peer.1.mtu (n.char + 1) data else notifyPDU e.cli.peer.1.mtu (n.char + 1) data) =
      (if n.ind = true then 0x1D else 0x1B) :: UInt8.ofNat (n.char + 1) :: UInt8.ofNat ((n.char + 1) / 256) :: data.take (m - 3) := by
    have hmm := hi.mtu
    unfold indicatePDU notifyPDU valuePDU
    rw [hmm]
    have : (if data.length > m - 3 then data.take (m - 3) else data) = data.take (m - 3) := by
      split
      · rfl
      · rw [List.take_of_length_le (by omega)]
    simp only [this]
    cases n.ind <;> rfl
  unfold sendValue
  simp only
  rw [hpdu, transfer_delivers hr _ _ _ _ _ _ _ _ hL.srvHandle hL.srvBuf.1 hL.srvBuf.2 hL.srvBufs (by simp only [List.length_cons, List.length_take]; have := hi.mtu; omega)
    (by simp only [List.length_cons, List.length_take]; omega) (by simp only [List.length_cons, List.length_take]; omega) (hsc _)]
  simp only [View.step, hmade]
  generalize data.take (m - 3) = d
  have hle : le16 (UInt8.ofNat (n.char + 1)) (UInt8.ofNat ((n.char + 1) / 256)) = n.char + 1 := by
    simp only [le16, UInt8.toNat_ofNat']; omega
  -- dispatch
  have hdisp : ∃ m' o, handleNotification e.subs ((if n.ind = true then 0x1D else 0x1B) :: UInt8.ofNat (n.char + 1) :: UInt8.ofNat ((n.char + 1) / 256) :: d) = .ok (m', o) ∧
      o.map (fun c => (c.1, c.2.2)) = (handlerFor v.active (n.char + 1) n.ind).map (fun h => (h, d)) ∧
      (∀ k, m' k = none ↔ e.subs k = none) ∧ (∀ k s, m' k = some s → ∃ s0, e.subs k = some s0 ∧ s.cccdh = s0.cccdh ∧ s.nHandler = s0.nHandler ∧ s.iHandler = s0.iHandler ∧ s.ccc = s0.ccc) := by
    unfold handleNotification
    have e1 : le16At (ε := Empty) ((if n.ind = true then (0x1D : UInt8) else 0x1B) :: UInt8.ofNat (n.char + 1) :: UInt8.ofNat ((n.char + 1) / 256) :: d) 1 = .ok (n.char + 1) := congrArg Go.ok hle
    rw [e1]
    simp only [Go.bind_ok]
    cases hs : e.subs (n.char + 1) with
    | none =>
      have hg := hi.gone _ hs
      refine ⟨_, _, rfl, ?_, fun _ => Iff.rfl, fun k s h => ⟨s, h, rfl, rfl, rfl, rfl⟩⟩
      unfold handlerFor
      rw [hg true, hg false]
      split <;> rfl
    | some s =>
      obtain ⟨-, h2, h3, -⟩ := hi.here _ _ hs
      simp only [index_cons_zero, Go.bind_ok]
      rw [sliceFrom_of_le (by simp)]
      simp only [Go.bind_ok, List.drop_succ_cons, List.drop_zero, Go.pure_def]
      have hg : ∀ k, (e.subs.set (n.char + 1) (some { s with id := s.id + 1 })) k = none ↔ e.subs k = none := by
        intro k
        simp only [Subs.set]
        split
        · rename_i hkk; subst hkk; simp [hs]
        · exact Iff.rfl
      have hh : ∀ k t, (e.subs.set (n.char + 1) (some { s with id := s.id + 1 })) k = some t → ∃ s0, e.subs k = some s0 ∧ t.cccdh = s0.cccdh ∧ t.nHandler = s0.nHandler ∧ t.iHandler = s0.iHandler ∧ t.ccc = s0.ccc := by
        intro k t hk
        simp only [Subs.set] at hk
        split at hk
        · rename_i hkk
          subst hkk
          injection hk with hk
          subst hk
          exact ⟨s, hs, rfl, rfl, rfl, rfl⟩
        · exact ⟨t, hk, rfl, rfl, rfl, rfl⟩
      unfold handlerFor
      rw [← h2, ← h3]
      revert hg hh
      generalize e.subs.set (n.char + 1) (some { s with id := s.id + 1 }) = m'
      intro hg hh
      cases n.ind
      · simp only [Bool.false_eq_true, if_false, show ¬ ((0x1B : UInt8) = 0x1D) by decide]
        cases s.nHandler <;> exact ⟨_, _, rfl, rfl, hg, hh⟩
      · simp only [if_true]
        cases s.iHandler <;> cases s.nHandler <;> exact ⟨_, _, rfl, rfl, hg, hh⟩
  obtain ⟨m', o, d1, d2, d3, d4⟩ := hdisp
  rw [d1]
  simp only
  refine ⟨_, rfl, ?_⟩
  refine ⟨?_, ?_, hi.supp, hi.ccc, hi.tracks, hi.ntfs, hi.vhs, ?_, hi.failed, hi.db, hi.mtu, hi.tx, hi.buf⟩
  · intro k hk i
    exact hi.gone k ((d3 k).1 hk) i
  · intro k s hk
    obtain ⟨s0, g1, g2, g3, g4, g5⟩ := d4 k s hk
    obtain ⟨y1, y2, y3, y4⟩ := hi.here k s0 g1
    rw [g2, g3, g4, g5]
    exact ⟨y1, y2, y3, y4⟩
  · show e.got ++ _ = v.got ++ _
    rw [hi.got, d2]

/-- One step: what is offered is possible, and keeps the invariant. -/
theorem step_ok {v : View} {e : Ends α} (hi : Inv L db D m v e) (o : Op α) (ho : Offered D o) (hcl : ∀ order, o = .clear order → order.Nodup ∧ ∀ vh ∈ order, (e.subs vh).isSome = true)
    (hva : ∀ k data, o = .value k data → k < v.made.length) :
    ∃ e', step L radio scratch e o = some e' ∧ Inv L db D m (v.step m o) e' := by
  cases o with
  | subscribe c ind h => exact step_subscribe hL hr hsc hD hm hmr hi c ho.1 ind h ho.2
  | unsubscribe c ind => exact step_unsubscribe hL hr hsc hD hm hmr hi c ho ind
  | clear order =>
    obtain ⟨h1, h2⟩ := hcl order rfl
    obtain ⟨e', r1, r2⟩ := step_clear hL hr hsc hD hm hmr (v := v) order (a := v.active) hi h1 h2
    refine ⟨e', ?_, r2⟩
    unfold step
    rw [hi.failed]
    simp only [if_pos h1]
    exact r1
  | app a =>
    refine ⟨_, by unfold step; rw [hi.failed]; rfl, ?_⟩
    exact ⟨hi.gone, hi.here, hi.supp, hi.ccc, hi.tracks, hi.ntfs, hi.vhs, hi.got, rfl, hi.db, hi.mtu, hi.tx, hi.buf⟩
  | value k data =>
    have hk := hva k data rfl
    rw [← hi.ntfs, List.length_map] at hk
    exact step_value hL hr hsc hD hm hmr hi k _ (List.getElem?_eq_getElem hk) data

/-- A step that was possible. -/
theorem step_inv {v : View} {e e' : Ends α} (hi : Inv L db D m v e) (o : Op α) (ho : Offered D o) (h : step L radio scratch e o = some e') : Inv L db D m (v.step m o) e' := by
  have hf : e.failed.isSome = false := by rw [hi.failed]; rfl
  have hcl : ∀ order, o = .clear order → order.Nodup ∧ ∀ vh ∈ order, (e.subs vh).isSome = true := by
    rintro order rfl
    unfold step at h
    rw [if_neg (by simp [hf])] at h
    simp only at h
    split at h
    · rename_i hn
      refine ⟨hn, ?_⟩
      have key : ∀ (order : List Nat) {a : Active} {e : Ends α}, Inv L db D m { v with active := a } e → order.Nodup →
          ∀ e', clearAll (airPeer L radio scratch) e order = some e' → ∀ vh ∈ order, (e.subs vh).isSome = true := by
        intro order
        induction order with
        | nil => intro a e _ _ e' _ vh hvh; cases hvh
        | cons x xs ih =>
          intro a e hi hn e' h vh hvh
          cases hs : e.subs x with
          | none => unfold clearAll at h; rw [hs] at h; cases h
          | some s =>
            rcases List.mem_cons.1 hvh with rfl | hvh
            · rw [hs]; rfl
            · -- the first entry is cleared, by the one-entry case
              obtain ⟨e1, r1, r2⟩ := step_clear hL hr hsc hD hm hmr (v := v) [x] hi (by simp) (by simp [hs])
              unfold clearAll at h r1
              rw [hs] at h r1
              simp only at h r1
              rw [List.nodup_cons] at hn
              cases hw : write (airPeer L radio scratch) e.cli s.cccdh [0, 0] with
              | ok c' =>
                rw [hw] at h r1
                simp only [clearAll] at h r1
                injection r1 with r1
                have := ih (e := { e with subs := e.subs.set x none, cli := c' }) (r1 ▸ r2) hn.2 e' h vh hvh
                have hne : vh ≠ x := fun hh => hn.1 (hh ▸ hvh)
                simpa only [Subs.set, if_neg hne] using this
              | err y =>
                rw [hw] at r1
                simp only at r1
                injection r1 with r1
                have := r2.failed
                rw [← r1] at this
                cases this
              | panic => rw [hw] at h; cases h
      exact key order (a := v.active) hi hn e' h
    · cases h
  have hva : ∀ k data, o = .value k data → k < v.made.length := by
    rintro k data rfl
    unfold step at h
    rw [if_neg (by simp [hf])] at h
    simp only at h
    rw [← hi.ntfs, List.length_map]
    cases hk : e.cli.peer.1.st.ntfs[k]? with
    | none => rw [hk] at h; cases h
    | some n => exact (List.getElem?_eq_some_iff.1 hk).1
  obtain ⟨e1, r1, r2⟩ := step_ok hL hr hsc hD hm hmr hi o ho hcl hva
  rw [h] at r1
  injection r1 with r1
  rw [r1]
  exact r2

theorem run_inv {e0 e : Ends α} (h0 : Fresh L db m e0) (ops : List (Op α)) (ho : ∀ o ∈ ops, Offered D o) (h : run L radio scratch e0 ops = some e) :
    Inv L db D m (viewAfter m ops) e := by
  have key := runT_ind (step := step L radio scratch) (s0 := e0) (P := fun ops e => (∀ o ∈ ops, Offered D o) → Inv L db D m (viewAfter m ops) e)
    (fun _ => inv_init h0) (by
      intro es s o s' _ ih hs ho
      have := step_inv hL hr hsc hD hm hmr (ih fun x hx => ho x (by simp [hx])) o (ho o (by simp)) hs
      simpa only [viewAfter, List.foldl_append, List.foldl_cons, List.foldl_nil] using this)
  exact key ops e h ho

end

/-! ## The theorems -/

/-- **C179.** A client and a server of this library on the two ends of a link: after any history of `Subscribe`, `Unsubscribe` and `ClearSubscriptions` for what the characteristics
offer, and of values sent, no call has failed; for each characteristic the server's application has exactly one notifier running for each active subscription of the client, and none for others; and
the handlers of the client have been called with exactly the values sent to them, in order, cut to the MTU less three. -/
theorem air_subscriptions (L : Link) (hL : L.Ok) (radio : Radio) (hr : Faithful radio) (scratch : Nat → Bytes) (hsc : ∀ k, (scratch k).length = 515)
    (db : DB (CState α)) (D : Chr → Prop) (hD : IsTable db D) (m : Nat) (e0 e : Ends α) (h0 : Fresh L db m e0) (ops : List (Op α)) (ho : ∀ o ∈ ops, Offered D o)
    (h : run L radio scratch e0 ops = some e) :
    e.failed = none ∧ (∀ c, D c → ∀ i, running e.cli.peer.1.st c.ref.handle i = if ((viewAfter m ops).active c.vh i).isSome then 1 else 0) ∧
      e.got = (viewAfter m ops).got := by
  have hi := run_inv hL hr hsc hD h0.low h0.high h0 ops ho h
  refine ⟨hi.failed, ?_, hi.got⟩
  intro c hc i
  rw [(hi.tracks c.ref.handle i).1]
  unfold bitsOf
  rw [hi.ccc c hc, bits_toNat]
  cases ((viewAfter m ops).active c.vh i).isSome <;> rfl

/-- **C179, progress.** None of these calls can panic or get stuck: whatever has happened, a call for what the characteristics offer is possible, and so is a value from any function that ever got a notifier. -/
theorem air_subscriptions_go_on (L : Link) (hL : L.Ok) (radio : Radio) (hr : Faithful radio) (scratch : Nat → Bytes) (hsc : ∀ k, (scratch k).length = 515)
    (db : DB (CState α)) (D : Chr → Prop) (hD : IsTable db D) (m : Nat) (e0 e : Ends α) (h0 : Fresh L db m e0) (ops : List (Op α)) (ho : ∀ o ∈ ops, Offered D o)
    (h : run L radio scratch e0 ops = some e) :
    (∀ c ind hd, D c → Supports c.ref ind → (step L radio scratch e (.subscribe c ind hd)).isSome = true) ∧
    (∀ c ind, D c → (step L radio scratch e (.unsubscribe c ind)).isSome = true) ∧
    (∀ order, order.Nodup → (∀ vh ∈ order, (e.subs vh).isSome = true) → (step L radio scratch e (.clear order)).isSome = true) ∧
    (∀ k data, k < (viewAfter m ops).made.length → (step L radio scratch e (.value k data)).isSome = true) := by
  have hi := run_inv hL hr hsc hD h0.low h0.high h0 ops ho h
  have key : ∀ o, Offered D o → (∀ order, o = .clear order → order.Nodup ∧ ∀ vh ∈ order, (e.subs vh).isSome = true) →
      (∀ k data, o = .value k data → k < (viewAfter m ops).made.length) → (step L radio scratch e o).isSome = true := by
    intro o h1 h2 h3
    obtain ⟨e', r, -⟩ := step_ok hL hr hsc hD h0.low h0.high hi o h1 h2 h3
    rw [r]; rfl
  refine ⟨fun c ind hd hc hs => key _ ⟨hc, hs⟩ (fun _ h => by cases h) (fun _ _ h => by cases h), fun c ind hc => key _ hc (fun _ h => by cases h) (fun _ _ h => by cases h), ?_, ?_⟩
  · intro order h1 h2
    exact key _ trivial (fun o ho => by cases ho; exact ⟨h1, h2⟩) (fun _ _ h => by cases h)
  · intro k data hk
    exact key _ trivial (fun _ h => by cases h) (fun k' d' h => by cases h; exact hk)

/-- What is possible in a situation: clearing some of the subscriptions, values from a notifier that was started. -/
def Possible (v : View) : Op α → Prop
  | .clear order => order.Nodup ∧ ∀ vh ∈ order, ∃ i, (v.active vh i).isSome = true
  | .value k _ => k < v.made.length
  | _ => True

/-- **C179, progress, of whole histories.** Every history of such calls goes through. -/
theorem history_goes_through (L : Link) (hL : L.Ok) (radio : Radio) (hr : Faithful radio) (scratch : Nat → Bytes) (hsc : ∀ k, (scratch k).length = 515)
    (db : DB (CState α)) (D : Chr → Prop) (hD : IsTable db D) (m : Nat) (e0 : Ends α) (h0 : Fresh L db m e0) (ops : List (Op α)) (ho : ∀ o ∈ ops, Offered D o)
    (hp : ∀ (n : Nat) o, ops[n]? = some o → Possible (viewAfter m (ops.take n)) o) : (run L radio scratch e0 ops).isSome = true := by
  have key : ∀ n, n ≤ ops.length → (run L radio scratch e0 (ops.take n)).isSome = true := by
    intro n
    induction n with
    | zero => intro _; rfl
    | succ n ih =>
      intro hn
      obtain ⟨e, he⟩ := Option.isSome_iff_exists.1 (ih (by omega))
      have hg : ops[n]? = some ops[n] := List.getElem?_eq_getElem (by omega)
      have hpo := hp n _ hg
      have ho' : ∀ o ∈ ops.take n, Offered D o := fun o h => ho o (List.mem_of_mem_take h)
      have hi := run_inv hL hr hsc hD h0.low h0.high h0 _ ho' he
      obtain ⟨e', r, -⟩ := step_ok hL hr hsc hD h0.low h0.high hi ops[n] (ho _ (List.getElem_mem _)) (by
          intro order h
          rw [h] at hpo
          refine ⟨hpo.1, fun vh hvh => ?_⟩
          obtain ⟨i, hv⟩ := hpo.2 vh hvh
          cases hs : e.subs vh with
          | none => rw [hi.gone vh hs i] at hv; cases hv
          | some _ => rfl) (by
          intro k data h
          rw [h] at hpo
          exact hpo)
      rw [List.take_succ, hg]
      exact Option.isSome_iff_exists.2 ⟨e', runT_snoc.2 ⟨e, he, r⟩⟩
  have := key ops.length (Nat.le_refl _)
  rwa [List.take_length] at this

/-! ## The tables that the library makes are such tables -/

/-- The characteristics of a list of services that have a CCCD, with the handles they are given in a table that starts at 1: the CCCD comes after the value and the descriptors of the application. -/
def InTable (ss : List (Svc α)) (c : Chr) : Prop :=
  ∃ pre u cpre ch cpost post, ss = pre ++ (⟨u, cpre ++ ch :: cpost⟩ : Svc α) :: post ∧ (ch.hasNotify || ch.hasIndicate) = true ∧
    c.ref = ⟨charHandle 1 pre cpre, ch.prop, ch.hasNotify, ch.hasIndicate⟩ ∧ c.cccdh = charHandle 1 pre cpre + 2 + ch.descs.length

/-- In a list of things with sizes, a position lies in one thing only. -/
private theorem place_unique {β : Type} (f : β → Nat) (n : Nat) : ∀ (a a' : List β) (x x' : β) (b b' : List β), a ++ x :: b = a' ++ x' :: b' →
    (a.map f).sum ≤ n → n < (a.map f).sum + f x → (a'.map f).sum ≤ n → n < (a'.map f).sum + f x' → a = a' ∧ x = x' := by
  intro a
  induction a generalizing n with
  | nil =>
    intro a' x x' b b' h h1 h2 h3 h4
    cases a' with
    | nil => simp only [List.nil_append, List.cons.injEq] at h; exact ⟨rfl, h.1⟩
    | cons y ys =>
      simp only [List.nil_append, List.cons_append, List.cons.injEq] at h
      have := h.1
      subst this
      simp only [List.map_nil, List.sum_nil, List.map_cons, List.sum_cons] at *
      omega
  | cons y ys ih =>
    intro a' x x' b b' h h1 h2 h3 h4
    cases a' with
    | nil =>
      simp only [List.nil_append, List.cons_append, List.cons.injEq] at h
      have := h.1
      subst this
      simp only [List.map_nil, List.sum_nil, List.map_cons, List.sum_cons] at *
      omega
    | cons z zs =>
      simp only [List.cons_append, List.cons.injEq] at h
      obtain ⟨h0, h⟩ := h
      subst h0
      simp only [List.map_cons, List.sum_cons] at *
      obtain ⟨r1, r2⟩ := ih (n - f y) zs x x' b b' h (by omega) (by omega) (by omega) (by omega)
      exact ⟨by rw [r1], r2⟩

/-- **C179, tables.** The table made of any list of services that fits in 65535 handles is one that `air_subscriptions` speaks about. -/
theorem table_is_table (ss : List (Svc α)) (hf : 1 + dbSize ss ≤ 65536) : IsTable (newDB ss 1) (InTable ss) := by
  constructor
  · rintro ⟨ref, cccdh⟩ ⟨pre, u, cpre, ch, cpost, post, rfl, hn, h1, h2⟩
    simp only at h1 h2
    subst h1
    subst h2
    obtain ⟨a, ha, -, -, -, -, hw⟩ := descriptor_attributes pre post u cpre cpost ch 1 hf ch.descs.length Desc.cccd (by rw [if_pos hn]; simp)
    have hs : charHandle 1 pre cpre + 2 + ch.descs.length < 65536 := by
      have e1 : svcSize (⟨u, cpre ++ ch :: cpost⟩ : Svc α) = 1 + (cpre.map charSize).sum + charSize ch + (cpost.map charSize).sum := by
        simp only [svcSize, List.map_append, List.sum_append, List.map_cons, List.sum_cons]; omega
      have e2 : charSize ch = 2 + ch.descs.length + 1 := by rw [charSize, if_pos hn]
      simp only [dbSize, List.map_append, List.sum_append, List.map_cons, List.sum_cons] at hf
      simp only [charHandle, svcHandle, dbSize]
      omega
    refine ⟨hs, ?_, a, ha, hw⟩
    show charHandle 1 pre cpre + 1 < 65536
    omega
  · rintro ⟨ref, cccdh⟩ ⟨ref', cccdh'⟩ ⟨pre, u, cpre, ch, cpost, post, rfl, hn, h1, h2⟩ ⟨pre', u', cpre', ch', cpost', post', he, hn', h1', h2'⟩ hh
    simp only at h1 h2 h1' h2'
    rw [h1, h1'] at hh
    simp only at hh
    have hsz : ∀ (c : Char α), 1 ≤ charSize c := by intro c; unfold charSize; omega
    have e1 : svcSize (⟨u, cpre ++ ch :: cpost⟩ : Svc α) = 1 + (cpre.map charSize).sum + charSize ch + (cpost.map charSize).sum := by
      simp only [svcSize, List.map_append, List.sum_append, List.map_cons, List.sum_cons]; omega
    have e2 : svcSize (⟨u', cpre' ++ ch' :: cpost'⟩ : Svc α) = 1 + (cpre'.map charSize).sum + charSize ch' + (cpost'.map charSize).sum := by
      simp only [svcSize, List.map_append, List.sum_append, List.map_cons, List.sum_cons]; omega
    have s1 := hsz ch
    have s2 := hsz ch'
    simp only [charHandle, svcHandle, dbSize] at hh
    obtain ⟨r1, r2⟩ := place_unique svcSize ((pre.map svcSize).sum + 1 + (cpre.map charSize).sum) pre pre' _ _ post post' he (by omega) (by rw [e1]; omega) (by omega) (by rw [e2]; omega)
    subst r1
    injection r2 with r2 r3
    subst r2
    obtain ⟨q1, q2⟩ := place_unique charSize (cpre.map charSize).sum cpre cpre' ch ch' cpost cpost' r3 (by omega) (by omega) (by omega) (by omega)
    subst q1
    subst q2
    rw [h1, h1', h2, h2']

/-! ## A history -/

/-- A heart rate service: a measurement that notifies, with a description, and a control point that indicates. -/
def heart : List (Svc Unit) :=
  [ { uuid := put16 0x180D, chars := [
      { uuid := put16 0x2A37, prop := 0x10, hasNotify := true, descs := [.app (put16 0x2901) (some [0x41]) none none] },
      { uuid := put16 0x2A39, prop := 0x20, hasIndicate := true }] } ]

def heartRate : Chr := ⟨⟨2, 0x10, true, false⟩, 5⟩
def control : Chr := ⟨⟨6, 0x20, false, true⟩, 8⟩

/-- The client subscribes to both, the first notifier sends a value and one that is too long for the MTU, the second one; then the client unsubscribes from the first, whose function goes on
sending (this value is dropped), and subscribes with another handler, which gets the value of the new notifier. -/
def heartOps : List (Op Unit) :=
  [.subscribe heartRate false 7, .subscribe control true 9, .value 0 [60], .value 0 (List.replicate 30 1), .value 1 [5], .unsubscribe heartRate false, .value 0 [61],
   .subscribe heartRate false 8, .value 2 [62], .clear [3, 7], .value 1 [6]]

/-- The two ends after the connection is made. -/
def heartEnds : Ends Unit :=
  { cli := ⟨({ db := newDB heart 1, st := CState.init (), mtu := 23, rxMTU := 515, prep := none, prepData := [] }, 0), List.replicate 23 0, 23, 23⟩ }

theorem heart_example : exampleLink.Ok ∧ Faithful cuttingRadio ∧ 1 + dbSize heart ≤ 65536 ∧ InTable heart heartRate ∧ InTable heart control ∧ (∀ o ∈ heartOps, Offered (InTable heart) o) ∧
    Fresh exampleLink (newDB heart 1) 23 heartEnds ∧
    (viewAfter 23 heartOps).got = [(7, [60]), (7, List.replicate 20 1), (9, [5]), (8, [62])] ∧
    ∃ e, run exampleLink cuttingRadio (fun _ => List.replicate 515 0xEE) heartEnds heartOps = some e ∧
      e.got = [(7, [60]), (7, List.replicate 20 1), (9, [5]), (8, [62])] ∧ running e.cli.peer.1.st 2 false = 0 := by
  have hL : exampleLink.Ok := ⟨by decide, by decide, by decide, by decide, by decide, by decide, by decide, by decide, by decide⟩
  have hc1 : InTable heart heartRate := ⟨[], _, [], _, _, [], rfl, rfl, rfl, rfl⟩
  have hc2 : InTable heart control := ⟨[], _, [_], _, [], [], rfl, rfl, rfl, rfl⟩
  have ho : ∀ o ∈ heartOps, Offered (InTable heart) o := by
    intro o ho
    simp only [heartOps, List.mem_cons, List.not_mem_nil, or_false] at ho
    rcases ho with rfl | rfl | rfl | rfl | rfl | rfl | rfl | rfl | rfl | rfl | rfl <;>
      first
      | exact ⟨hc1, by decide⟩ | exact ⟨hc2, by decide⟩ | exact hc1 | trivial
  have h0 : Fresh exampleLink (newDB heart 1) 23 heartEnds :=
    ⟨rfl, rfl, rfl, ⟨(), rfl⟩, rfl, rfl, by decide, by decide, by decide, by decide⟩
  have hg : (viewAfter 23 heartOps).got = [(7, [60]), (7, List.replicate 20 1), (9, [5]), (8, [62])] := by decide
  refine ⟨hL, cuttingRadio_faithful, by decide, hc1, hc2, ho, h0, hg, ?_⟩
  have hrun := history_goes_through exampleLink hL cuttingRadio cuttingRadio_faithful (fun _ => List.replicate 515 0xEE) (fun _ => List.length_replicate) _ _ (table_is_table heart (by decide)) 23 _ h0
    heartOps ho (by
      intro n o hn
      have hlt : n < 11 := (List.getElem?_eq_some_iff.1 hn).1
      have : n = 0 ∨ n = 1 ∨ n = 2 ∨ n = 3 ∨ n = 4 ∨ n = 5 ∨ n = 6 ∨ n = 7 ∨ n = 8 ∨ n = 9 ∨ n = 10 := by omega
      rcases this with rfl | rfl | rfl | rfl | rfl | rfl | rfl | rfl | rfl | rfl | rfl <;> (injection hn with hn; subst hn) <;>
        first
        | trivial
        | (show _ < _; decide)
        | (refine ⟨by decide, ?_⟩
           intro vh hvh
           simp only [List.mem_cons, List.not_mem_nil, or_false] at hvh
           rcases hvh with rfl | rfl
           · exact ⟨false, by decide⟩
           · exact ⟨true, by decide⟩))
  obtain ⟨e, he⟩ := Option.isSome_iff_exists.1 hrun
  obtain ⟨-, r2, r3⟩ := air_subscriptions exampleLink hL cuttingRadio cuttingRadio_faithful _ (fun _ => List.length_replicate) _ _ (table_is_table heart (by decide)) 23 _ e h0 heartOps ho he
  refine ⟨e, he, by rw [r3, hg], ?_⟩
  rw [show (2 : Nat) = heartRate.ref.handle from rfl, r2 heartRate hc1 false]
  rfl

/-- C179, if the write of the CCCD fails (never between two devices of this library, `air_subscriptions_go_on`): the call returns the error, and the client forgets both handlers of this characteristic and nothing else. -/
theorem refused_subscription_forgets (ex : Exchange (Server (CState α) × Nat)) (e e' : Ends α) (cccdh vh : Nat) (ind : Bool) (h : Option Nat) (a : Nat) (v : UInt16) (x : CErr)
    (hw : (setHandlers e.subs cccdh vh ind h true).2 = some (a, v)) (hx : write ex e.cli a (put16 v.toNat) = .err x) (he : setSub ex e cccdh vh ind h = some e') :
    e'.failed = some x ∧ e'.subs vh = none ∧ (∀ k, k ≠ vh → e'.subs k = e.subs k) ∧ e'.got = e.got := by
  unfold setSub at he
  rw [hw] at he
  simp only [hx] at he
  obtain rfl := Option.some.inj he
  refine ⟨rfl, ?_, ?_, rfl⟩
  · show (setHandlers e.subs cccdh vh ind h false).1 vh = none
    unfold setHandlers at hw ⊢
    cases h with
    | none => simp only at hw ⊢; split at hw <;> simp_all [Subs.set]
    | some h => simp only at hw ⊢; split at hw <;> simp_all [Subs.set]
  · intro k hk
    show (setHandlers e.subs cccdh vh ind h false).1 k = _
    unfold setHandlers
    cases h with
    | none => simp only; split <;> simp [Subs.set, hk]
    | some h => simp only; split <;> simp [Subs.set, hk]

end Ble.AirSub
