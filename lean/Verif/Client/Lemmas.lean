import Verif.Client.Spec
import Verif.Props.AttRead
set_option autoImplicit false

namespace Ble.Client

open Ble.Att Ble.Spec Ble.Props

variable {α σ : Type}

theorem send_ok {ex : Exchange σ} {c : Cli σ} {req rsp : Bytes} {p : σ} (hb : req.length ≤ c.buf.length)
    (h : ex c.peer req = .ok (p, rsp)) :
    Cli.send ex c req = .ok ({ c with peer := p, buf := req ++ c.buf.drop req.length }, rsp) := by
  unfold Cli.send
  rw [if_neg (by omega), h]; rfl

theorem serverPeer_ok {s s' : Server σ} {req rsp : Bytes} {op : UInt8} (h : handleRequest s req = .ok (s', some rsp))
    (ho : rsp.head? = some op) (h1 : op = 0x01 ∨ op = rspOfReq (req.headD 0)) :
    serverPeer s req = .ok (s', rsp) := by
  unfold serverPeer
  rw [h]
  simp only []
  rw [if_pos]
  rcases h1 with rfl | rfl <;> simp [ho]

/-- A client with the given buffer size and MTUs and this peer. -/
structure Like (c : Cli σ) (p : σ) (n tx rx : Nat) : Prop where
  peer : c.peer = p
  buf : c.buf.length = n
  tx : c.txMTU = tx
  rx : c.rxMTU = rx

theorem send_server {s s' : Server σ} {c : Cli (Server σ)} {n tx rx : Nat} (hc : Like c s n tx rx) {req rsp : Bytes} {op : UInt8}
    (hb : req.length ≤ n) (h : handleRequest s req = .ok (s', some rsp))
    (ho : rsp.head? = some op) (h1 : op = 0x01 ∨ op = rspOfReq (req.headD 0)) :
    ∃ c', Like c' s' n tx rx ∧ Cli.send serverPeer c req = .ok (c', rsp) := by
  have hs : serverPeer c.peer req = .ok (s', rsp) := by rw [hc.peer]; exact serverPeer_ok h ho h1
  refine ⟨_, ?_, send_ok (by rw [hc.buf]; exact hb) hs⟩
  refine ⟨rfl, ?_, hc.tx, hc.rx⟩
  have := hc.buf
  simp only [List.length_append, List.length_drop]; omega

theorem checkError_error (op : UInt8) (h : Nat) (e : UInt8) : checkError (errorRsp op h e) = .err (.att e) := by
  simp [checkError, errorRsp, put16]

theorem checkError_other {op : UInt8} {t : Bytes} (h : op ≠ 0x01) : checkError (op :: t) = .ok () := by
  simp [checkError, h]

/-- A list request answered with Attribute Not Found. -/
theorem readList_error {s s' : Server σ} {c : Cli (Server σ)} {n tx rx : Nat} (hc : Like c s n tx rx) {op : UInt8} {lo hi : Nat} {t : Bytes}
    {e : UInt8} (hb : 5 + t.length ≤ n) (hle : lo ≤ hi) (ht : t.length = 2 ∨ t.length = 16)
    (h : handleRequest s (rangeReq op lo hi t) = .ok (s', some (errorRsp op lo e))) :
    readList op serverPeer c lo hi t = .err (.att e) := by
  obtain ⟨c', hc', hs⟩ := send_server hc (req := rangeReq op lo hi t) (op := 0x01)
    (by simp only [rangeReq, List.length_cons, List.length_append, put16_length]; omega) h rfl (.inl rfl)
  unfold readList
  rw [if_neg (by omega)]
  unfold rangeReq at hs
  rw [hs]
  simp only [Go.bind_ok, checkError_error, Go.bind_err]

/-- A list request answered with a list. -/
theorem readList_ok {s s' : Server σ} {c : Cli (Server σ)} {n tx rx : Nat} (hc : Like c s n tx rx) {op : UInt8} {lo hi : Nat} {t : Bytes}
    {L : Nat} {body : Bytes} (hb : 5 + t.length ≤ n) (hle : lo ≤ hi) (ht : t.length = 2 ∨ t.length = 16)
    (hop : op = 0x08 ∨ op = 0x10) (hL : 0 < L) (hL2 : L < 256) (hbody : 2 ≤ body.length) (hmod : body.length % L = 0)
    (h : handleRequest s (rangeReq op lo hi t) = .ok (s', some ((op + 1) :: UInt8.ofNat L :: body))) :
    ∃ c', Like c' s' n tx rx ∧ readList op serverPeer c lo hi t = .ok (c', L, body) := by
  obtain ⟨c', hc', hs⟩ := send_server hc (req := rangeReq op lo hi t) (op := op + 1)
    (by simp only [rangeReq, List.length_cons, List.length_append, put16_length]; omega) h rfl
    (.inr (by rcases hop with rfl | rfl <;> rfl))
  refine ⟨c', hc', ?_⟩
  unfold readList
  rw [if_neg (by omega)]
  unfold rangeReq at hs
  rw [hs]
  have hn : (UInt8.ofNat L).toNat = L := by simp only [UInt8.toNat_ofNat']; omega
  have hnz : ¬ UInt8.ofNat L = 0 := by
    intro e; have := congrArg UInt8.toNat e; rw [hn] at this; simp at this; omega
  simp only [Go.bind_ok]
  rw [checkError_other (by rcases hop with rfl | rfl <;> decide)]
  simp only [Go.bind_ok, List.length_cons]
  rw [if_neg (by omega)]
  simp only [index_cons_succ, index_cons_zero, Go.bind_ok]
  rw [if_neg hnz, hn, if_neg (by simpa using hmod)]
  rfl

/-! ## Services -/

/-- A service in a Read By Group Type Response. -/
def svcEntry (i : SvcInfo) : Bytes := put16 i.handle ++ put16 i.endHandle ++ i.uuid

/-- One more service, if it passes the filter. -/
def addKept (filter : Option (List Bytes)) (acc : List SvcInfo) (i : SvcInfo) : List SvcInfo :=
  if kept filter i.uuid then acc ++ [i] else acc

/-- What the client does with a list of services: keep those that pass the filter, stop at end handle 0xFFFF or when as many as the filter
has entries are known. -/
def svcScan (filter : Option (List Bytes)) : List SvcInfo → List SvcInfo → Bool × List SvcInfo
  | [], acc => (false, acc)
  | i :: is, acc =>
    if i.endHandle = 0xFFFF ∨ (addKept filter acc i).length = (filter.getD []).length then (true, addKept filter acc i)
    else svcScan filter is (addKept filter acc i)

theorem le16At_entry0 {ε : Type} (m : Nat) (h : m < 65536) (t : Bytes) : le16At (ε := ε) (put16 m ++ t) 0 = .ok m := by
  simp [le16At, put16, le16_put16 m h]

theorem le16At_entry2 {ε : Type} (k m : Nat) (h : m < 65536) (t : Bytes) : le16At (ε := ε) (put16 k ++ (put16 m ++ t)) 2 = .ok m := by
  simp [le16At, put16, le16_put16 m h]

/-- The handle after the last service of a list. -/
def nextStart (start : Nat) (is : List SvcInfo) : Nat := match is.getLast? with | none => start | some i => i.endHandle + 1

theorem svcLoop_scan (filter : Option (List Bytes)) (L start : Nat) (is : List SvcInfo) (acc : List SvcInfo)
    (hlen : ∀ i ∈ is, i.uuid.length = L ∧ i.handle < 65536 ∧ i.endHandle < 65536) :
    svcLoop filter (4 + L) (is.flatMap svcEntry) start acc =
      .ok (if (svcScan filter is acc).1 then .ret (svcScan filter is acc).2
           else .again (nextStart start is) (svcScan filter is acc).2) := by
  induction is generalizing start acc with
  | nil => rw [List.flatMap_nil, svcLoop]; rfl
  | cons i is ih =>
    obtain ⟨h1, h2, h3⟩ := hlen i (by simp)
    have ih' := fun start acc => ih start acc (fun x hx => hlen x (by simp [hx]))
    rw [List.flatMap_cons]
    have hcons : ∃ x xs, svcEntry i ++ is.flatMap svcEntry = x :: xs := ⟨_, _, rfl⟩
    obtain ⟨x, xs, hx⟩ := hcons
    have hl : (svcEntry i).length = 4 + L := by simp [svcEntry, h1]; omega
    have ht : (x :: xs).take (4 + L) = svcEntry i := by rw [← hx, ← hl, List.take_left]
    have hd : (x :: xs).drop (4 + L) = is.flatMap svcEntry := by rw [← hx, ← hl, List.drop_left]
    have hlen' : 4 + L ≤ (x :: xs).length := by rw [← hx]; simp only [List.length_append, hl]; omega
    have e0 : le16At (ε := CErr) (x :: xs) 0 = .ok i.handle := by
      rw [← hx]; simp only [svcEntry, List.append_assoc]; exact le16At_entry0 _ h2 _
    have e2 : le16At (ε := CErr) (x :: xs) 2 = .ok i.endHandle := by
      rw [← hx]; simp only [svcEntry, List.append_assoc]; exact le16At_entry2 _ _ h3 _
    have hu : (svcEntry i).drop 4 = i.uuid := by simp [svcEntry, put16]
    rw [hx, svcLoop, if_neg (by omega), e0, e2]
    simp only [Go.bind_ok, ht, hd, hu]
    rw [svcScan]
    have hi : (⟨i.uuid, i.handle, i.endHandle⟩ : SvcInfo) = i := rfl
    rw [hi]
    rw [show (if kept filter i.uuid = true then acc ++ [i] else acc) = addKept filter acc i from rfl]
    by_cases he : i.endHandle = 0xFFFF
    · rw [if_pos he, if_pos (Or.inl he)]; rfl
    · rw [if_neg he]
      by_cases hk : (addKept filter acc i).length = (filter.getD []).length
      · rw [if_pos hk, if_pos (Or.inr hk)]; rfl
      · have hno : ¬ (i.endHandle = 0xFFFF ∨ (addKept filter acc i).length = (filter.getD []).length) := fun h => h.elim he hk
        rw [if_neg hk, if_neg hno, ih']
        have e1 : add16 i.endHandle 1 = i.endHandle + 1 := by simp only [add16]; omega
        have e2 : nextStart (i.endHandle + 1) is = nextStart start (i :: is) := by
          simp only [nextStart, List.getLast?_cons]
          cases hg : is.getLast? with
          | none => simp
          | some j => simp
        rw [e1, e2]

theorem svcScan_append (filter : Option (List Bytes)) (xs ys acc : List SvcInfo) :
    svcScan filter (xs ++ ys) acc =
      if (svcScan filter xs acc).1 then svcScan filter xs acc else svcScan filter ys (svcScan filter xs acc).2 := by
  induction xs generalizing acc with
  | nil => rfl
  | cons i xs ih =>
    simp only [List.cons_append, svcScan]
    by_cases hs : i.endHandle = 0xFFFF ∨ (addKept filter acc i).length = (filter.getD []).length
    · simp only [if_pos hs, if_true]
    · simp only [if_neg hs]; exact ih _

/-- The services a client ends up with: all of them, or with a filter the first ones that pass it, at most as many as the filter has
entries. -/
theorem svcScan_all (is : List SvcInfo) (h : ∀ i ∈ is.dropLast, i.endHandle ≠ 0xFFFF) (acc : List SvcInfo) :
    (svcScan none is acc).2 = acc ++ is := by
  induction is generalizing acc with
  | nil => simp [svcScan]
  | cons i is ih =>
    simp only [svcScan, addKept, kept, if_true, Option.getD_none, List.length_append, List.length_cons, List.length_nil]
    cases is with
    | nil => split <;> simp [svcScan]
    | cons j js =>
      have h1 := h i (by simp)
      rw [if_neg (by simp [h1]), ih (fun x hx => h x (by simp [List.dropLast_cons_of_ne_nil] at hx ⊢; simp [hx]))]
      simp

theorem svcScan_filter (l : List Bytes) (is : List SvcInfo) (h : ∀ i ∈ is.dropLast, i.endHandle ≠ 0xFFFF) (acc : List SvcInfo)
    (ha : acc.length ≤ l.length) (h0 : acc.length = l.length → l = []) :
    (svcScan (some l) is acc).2 = acc ++ ((is.filter fun i => l.contains i.uuid).take (l.length - acc.length)) := by
  induction is generalizing acc with
  | nil => simp [svcScan]
  | cons i is ih =>
    simp only [svcScan, Option.getD_some]
    by_cases hk : l.contains i.uuid = true
    · have hlt : acc.length < l.length := by
        rcases Nat.lt_or_ge acc.length l.length with h | h
        · exact h
        · have := h0 (by omega); subst this; simp at hk
      rw [show addKept (some l) acc i = acc ++ [i] from if_pos hk, List.filter_cons_of_pos (p := fun i : SvcInfo => l.contains i.uuid) hk]
      have e : l.length - acc.length = (l.length - (acc ++ [i]).length) + 1 := by simp; omega
      rw [e, List.take_succ_cons]
      by_cases hs : (acc ++ [i]).length = l.length
      · rw [if_pos (Or.inr hs), hs]; simp
      · cases is with
        | nil => split <;> simp [svcScan]
        | cons j js =>
          have h1 := h i (by simp)
          rw [if_neg (by simp only [h1, hs, or_self, not_false_eq_true]), ih (fun x hx => h x (by simp [List.dropLast_cons_of_ne_nil] at hx ⊢; simp [hx]))
            _ (by simp; omega) (fun e => absurd e hs)]
          simp
    · rw [show addKept (some l) acc i = acc from if_neg hk, List.filter_cons_of_neg (p := fun i : SvcInfo => l.contains i.uuid) hk]
      by_cases hs : acc.length = l.length
      · rw [if_pos (Or.inr hs), hs]; simp
      · cases is with
        | nil => split <;> simp [svcScan]
        | cons j js =>
          have h1 := h i (by simp)
          rw [if_neg (by simp only [h1, hs, or_self, not_false_eq_true]), ih (fun x hx => h x (by simp [List.dropLast_cons_of_ne_nil] at hx ⊢; simp [hx]))
            _ ha h0]

/-- Declarations of services that are adjacent in the table: a run of the same UUID size, followed by nothing or by an attribute whose
static value has another size. -/
theorem svcsAt_run (L : Nat) (hL : L = 2 ∨ L = 16) (ss : List (Svc α)) (hp : ∀ s ∈ ss, ∀ c ∈ s.chars, UuidOk c.uuid) (h : Nat) :
    ∃ run rest, svcsAt ss h = run ++ rest ∧ (∀ a ∈ run, ∃ v, a.v = some v ∧ 4 + v.length = 4 + L) ∧
      (rest = [] ∨ ∃ a t v, rest = a :: t ∧ a.v = some v ∧ 4 + v.length ≠ 4 + L) ∧
      run.map (fun a => (⟨sval a, a.h, a.endh⟩ : SvcInfo)) = (svcInfos ss h).take run.length ∧ run.length ≤ ss.length ∧
      (∀ s, ss.head? = some s → s.uuid.length = L → 0 < run.length) := by
  induction ss generalizing h with
  | nil => exact ⟨[], [], rfl, by simp, .inl rfl, rfl, Nat.le_refl _, by simp⟩
  | cons s ss ih =>
    by_cases hu : s.uuid.length = L
    · cases hc : s.chars with
      | nil =>
        obtain ⟨run, rest, h1, h2, h3, h4, h5, -⟩ := ih (fun t ht => hp t (by simp [ht])) (h + svcSize s)
        refine ⟨{ h := h, endh := if ss.isEmpty then 0xFFFF else h + svcSize s - 1, typ := primaryServiceUUID, v := some s.uuid } :: run, rest,
          by simp [svcsAt, svcAt, hc, charsAt, h1], ?_, h3, ?_, ?_, ?_⟩
        · intro a ha
          rcases List.mem_cons.1 ha with rfl | ha
          · exact ⟨_, rfl, by omega⟩
          · exact h2 a ha
        · simp only [List.map_cons, h4, List.length_cons, svcInfos, List.take_succ_cons]; rfl
        · simp only [List.length_cons]; omega
        · intro _ _ _; simp
      | cons c cs =>
        refine ⟨[{ h := h, endh := if ss.isEmpty then 0xFFFF else h + svcSize s - 1, typ := primaryServiceUUID, v := some s.uuid }],
          charsAt s.chars (h + 1) ++ svcsAt ss (h + svcSize s), by simp [svcsAt, svcAt], ?_, .inr ?_, ?_, ?_, ?_⟩
        · intro a ha
          rw [List.mem_singleton] at ha; subst ha
          exact ⟨_, rfl, by omega⟩
        · refine ⟨_, _, _, by rw [hc]; rfl, rfl, ?_⟩
          have := hp s (by simp) c (by rw [hc]; simp)
          unfold UuidOk at this
          simp only [List.cons_append, List.length_cons, List.length_append, put16_length]
          omega
        · rfl
        · simp
        · intro _ _ _; simp
    · refine ⟨[], svcsAt (s :: ss) h, rfl, by simp, .inr ⟨_, _, _, rfl, rfl, by omega⟩, rfl, by simp, ?_⟩
      intro t ht hl
      simp only [List.head?_cons, Option.some.injEq] at ht
      subst ht; exact absurd hl hu

theorem svcInfos_length (ss : List (Svc α)) (h : Nat) : (svcInfos ss h).length = ss.length := by
  induction ss generalizing h with
  | nil => rfl
  | cons s ss ih => simp [svcInfos, ih]

end Ble.Client
