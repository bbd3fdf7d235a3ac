import Verif.Client.Lemmas
set_option autoImplicit false

/-!
# Discovery against this library's own server (C15, C46)
-/

namespace Ble.Props

open Ble.Att Ble.Spec Ble.Client

variable {α σ : Type}

/-! ## C15: services -/

theorem handleRequest_readByGroup (s : Server σ) (hc : Consecutive s.db) (lo hi : Nat) (typ : Bytes)
    (h0 : 0 < lo) (h1 : lo ≤ hi) (h2 : hi < 65536) (ht : typ.length = 2 ∨ typ.length = 16) :
    handleRequest s (rangeReq 0x10 lo hi typ) = (do
      let (s', out) ← readByGroupLoop (s.mtu - 2) (rangeReq 0x10 lo hi typ) s (inRange s.db lo hi) 0 []
      match out with
      | .fail e => reject s' 0x10 lo e
      | .done dlen buf =>
        if dlen = 0 then reject s' 0x10 lo errAttrNotFound
        else pure (s', some (0x11 :: UInt8.ofNat dlen :: buf))) := by
  show handleReadByGroup s (rangeReq 0x10 lo hi typ) = _
  unfold handleReadByGroup
  have e1 : index (ε := Empty) (rangeReq 0x10 lo hi typ) 0 = .ok 0x10 := rfl
  have e2 : le16At (ε := Empty) (rangeReq 0x10 lo hi typ) 1 = .ok lo := le16At_put16 _ _ (by omega) _
  have e3 : le16At (ε := Empty) (rangeReq 0x10 lo hi typ) 3 = .ok hi := le16At_put16_3 _ _ _ h2 _
  rw [e1, e2, e3]
  simp only [Go.bind_ok]
  rw [if_neg (by simp only [rangeReq, List.length_cons, List.length_append, put16_length]; omega), if_neg (by omega), subrange_of_le hc (by omega)]
  rfl

/-- Attributes of a table from a service on. -/
theorem inRange_from_service (pre post : List (Svc α)) (base hi : Nat) (hf : base + dbSize (pre ++ post) ≤ 65536)
    (hhi : 65535 ≤ hi) (hpost : post ≠ []) :
    inRange (newDB (pre ++ post) base) (base + dbSize pre) hi = svcsAt post (base + dbSize pre) := by
  have hne : pre ++ post ≠ [] := by simp [hpost]
  unfold inRange
  rw [newDB_attrs _ _ hf hne, filter_consec _ base _ _ (svcsAt_consec _ _)]
  have happ : ∀ (pre : List (Svc α)) (base : Nat), ∃ A, svcsAt (pre ++ post) base = A ++ svcsAt post (base + dbSize pre) ∧ A.length = dbSize pre := by
    intro pre
    induction pre with
    | nil => intro base; exact ⟨[], by simp [dbSize], rfl⟩
    | cons p pre ih =>
      intro base
      obtain ⟨A, h1, h2⟩ := ih (base + svcSize p)
      refine ⟨svcAt p base (pre ++ post).isEmpty ++ A, ?_, ?_⟩
      · simp only [List.cons_append, svcsAt, h1, dbSize, List.map_cons, List.sum_cons, ← Nat.add_assoc, List.append_assoc]
      · simp [svcAt_length, h2, dbSize]
  obtain ⟨A, hA, hl⟩ := happ pre base
  have : (svcsAt (pre ++ post) base).length = dbSize (pre ++ post) := svcsAt_length _ _
  rw [List.take_of_length_le (by omega), hA]
  rw [show base + dbSize pre - base = A.length by omega, List.drop_left]

/-- Read By Group Type from a service on: a non-empty list of the next services, all with UUIDs of the first one's size. -/
theorem readByGroup_services (srv : Server (CState α)) (pre post : List (Svc α)) (s : Svc α)
    (hdb : srv.db = newDB (pre ++ s :: post) 1) (hm : 23 ≤ srv.mtu) (hf : 1 + dbSize (pre ++ s :: post) ≤ 65536)
    (hs : UuidOk s.uuid) (hp : ∀ t ∈ s :: post, ∀ c ∈ t.chars, UuidOk c.uuid) :
    ∃ n, 0 < n ∧ n ≤ (s :: post).length ∧ (∀ i ∈ (svcInfos (s :: post) (1 + dbSize pre)).take n, i.uuid.length = s.uuid.length) ∧
      handleRequest srv (rangeReq 0x10 (1 + dbSize pre) 0xFFFF (put16 0x2800)) =
        .ok (srv, some (0x11 :: UInt8.ofNat (4 + s.uuid.length) :: ((svcInfos (s :: post) (1 + dbSize pre)).take n).flatMap svcEntry)) := by
  have hsz : dbSize (pre ++ s :: post) = dbSize pre + svcSize s + dbSize post := by simp [dbSize]; omega
  have h1s : 1 ≤ svcSize s := by unfold svcSize; omega
  have hc : Consecutive srv.db := by
    rw [hdb]; exact (table_handles _ _ (by omega)).2
  obtain ⟨run, rest, hr, hrun, hrest, hinfo, hlen, hpos⟩ := svcsAt_run s.uuid.length hs (s :: post) hp (1 + dbSize pre)
  have hpos' := hpos s rfl rfl
  cases run with
  | nil => simp at hpos'
  | cons a run =>
    obtain ⟨v, hv, hvl⟩ := hrun a (by simp)
    have hin : inRange srv.db (1 + dbSize pre) 0xFFFF = a :: (run ++ rest) := by
      rw [hdb, inRange_from_service _ _ _ _ hf (by omega) (by simp), hr]; rfl
    have hL : UuidOk v := by unfold UuidOk at *; omega
    have e := firstLen_eq 4 (srv.mtu - 2) v.length
    have hfl : firstLen 4 (srv.mtu - 2) v.length = 4 + v.length := by unfold UuidOk at hL; omega
    have hall : ∀ i ∈ (svcInfos (s :: post) (1 + dbSize pre)).take (a :: run).length, i.uuid.length = s.uuid.length := by
      intro i hi
      rw [← hinfo, List.mem_map] at hi
      obtain ⟨b, hb, rfl⟩ := hi
      obtain ⟨w, hw, hwl⟩ := hrun b hb
      simp only [sval, hw, Option.getD_some]; omega
    refine ⟨1 + min run.length ((srv.mtu - 2 - (4 + v.length)) / (4 + v.length)), Nat.lt_of_lt_of_le Nat.zero_lt_one (Nat.le_add_right _ _), ?_, ?_, ?_⟩
    · simp only [List.length_cons] at hlen ⊢; omega
    · intro i hi
      refine hall i (List.take_subset_take_left _ ?_ hi)
      simp only [List.length_cons]; omega
    · rw [handleRequest_readByGroup srv hc _ _ _ (by omega) (by omega) (by omega) (.inl rfl), hin, readByGroupLoop, hv]
      simp only [Go.pure_def, Go.bind_ok]
      rw [listStep_first (by simp; unfold UuidOk at hL; omega) (by simp)]
      have hh : (put16 a.h ++ put16 a.endh).length = 4 := rfl
      simp only [hh, hfl, Go.bind_ok, List.length_nil]
      rw [if_neg (by unfold UuidOk at hL; omega)]
      simp only [Nat.add_sub_cancel_left, List.take_length, List.nil_append]
      have hbl : (put16 a.h ++ put16 a.endh ++ v).length = 4 + v.length := by simp only [List.length_append, put16_length]
      rw [readByGroupLoop_run _ _ _ _ _ _ _ (by omega) (by unfold UuidOk at hL; omega)
        (fun x hx => by obtain ⟨w, h1, h2⟩ := hrun x (by simp [hx]); exact ⟨w, h1, by omega⟩)
        (by rcases hrest with h | ⟨b, t, w, h1, h2, h3⟩
            · exact .inl h
            · exact .inr ⟨b, t, w, h1, h2, by omega⟩), hbl]
      simp only [Go.bind_ok]
      rw [if_neg (by omega), show 4 + v.length = 4 + s.uuid.length by omega]
      have hbody : ((svcInfos (s :: post) (1 + dbSize pre)).take
          (1 + min run.length ((srv.mtu - 2 - (4 + s.uuid.length)) / (4 + s.uuid.length)))).flatMap svcEntry =
          put16 a.h ++ put16 a.endh ++ v ++
            (run.take ((srv.mtu - 2 - (4 + s.uuid.length)) / (4 + s.uuid.length))).flatMap fun a => put16 a.h ++ put16 a.endh ++ sval a := by
        have h1 : (svcInfos (s :: post) (1 + dbSize pre)).take
            (1 + min run.length ((srv.mtu - 2 - (4 + s.uuid.length)) / (4 + s.uuid.length))) =
            ((a :: run).map (fun a => (⟨sval a, a.h, a.endh⟩ : SvcInfo))).take
              (1 + min run.length ((srv.mtu - 2 - (4 + s.uuid.length)) / (4 + s.uuid.length))) := by
          rw [hinfo, List.take_take]
          congr 1
          simp only [List.length_cons]; omega
        rw [h1, Nat.add_comm 1, List.map_cons, List.take_succ_cons, List.flatMap_cons]
        have h2 : (run.map (fun a => (⟨sval a, a.h, a.endh⟩ : SvcInfo))).take
              (min run.length ((srv.mtu - 2 - (4 + s.uuid.length)) / (4 + s.uuid.length))) =
            (run.take ((srv.mtu - 2 - (4 + s.uuid.length)) / (4 + s.uuid.length))).map (fun a => (⟨sval a, a.h, a.endh⟩ : SvcInfo)) := by
          rw [← List.map_take]
          congr 1
          rw [Nat.min_comm, ← List.take_take, List.take_length]
        rw [h2, List.flatMap_map]
        simp [svcEntry, sval, hv]
      rw [hbody]

theorem svcInfos_drop (ss : List (Svc α)) (n h : Nat) : (svcInfos ss h).drop n = svcInfos (ss.drop n) (h + dbSize (ss.take n)) := by
  induction ss generalizing n h with
  | nil => simp [svcInfos]
  | cons s ss ih =>
    cases n with
    | zero => simp [dbSize]
    | succ n =>
      simp only [svcInfos, List.drop_succ_cons, ih, List.take_succ_cons]
      congr 1
      simp [dbSize]; omega

/-- Where the client asks next after the first `n` services: the start of the next one. -/
theorem nextStart_take (ss : List (Svc α)) (n h start : Nat) (hn : 0 < n) (hlt : n < ss.length) :
    nextStart start ((svcInfos ss h).take n) = h + dbSize (ss.take n) := by
  induction ss generalizing n h start with
  | nil => simp at hlt
  | cons s ss ih =>
    cases n with
    | zero => omega
    | succ n =>
      have h1s : 1 ≤ svcSize s := by unfold svcSize; omega
      simp only [List.length_cons] at hlt
      cases ss with
      | nil => simp at hlt
      | cons t ss =>
        rw [svcInfos, List.take_succ_cons]
        have hcons : ∀ (i : SvcInfo) is, nextStart start (i :: is) = nextStart (i.endHandle + 1) is := by
          intro i is
          simp only [nextStart, List.getLast?_cons]
          cases is.getLast? <;> simp
        rw [hcons]
        cases n with
        | zero => simp [nextStart, dbSize]; omega
        | succ n =>
          rw [ih (n + 1) _ _ (by omega) (by simpa using hlt)]
          simp [dbSize]; omega

theorem svcInfos_bound (ss : List (Svc α)) (h : Nat) (hf : h + dbSize ss ≤ 65536) :
    ∀ i ∈ svcInfos ss h, i.handle < 65536 ∧ i.endHandle < 65536 := by
  induction ss generalizing h with
  | nil => simp [svcInfos]
  | cons s ss ih =>
    have h1s : 1 ≤ svcSize s := by unfold svcSize; omega
    have hsz : dbSize (s :: ss) = svcSize s + dbSize ss := by simp [dbSize]
    intro i hi
    rcases List.mem_cons.1 hi with rfl | hi
    · refine ⟨by simp only []; omega, ?_⟩
      simp only []; split <;> omega
    · exact ih _ (by omega) i hi

theorem svcInfos_last (ss : List (Svc α)) (h : Nat) (hf : h + dbSize ss ≤ 65536) :
    ∀ i ∈ (svcInfos ss h).dropLast, i.endHandle ≠ 0xFFFF := by
  induction ss generalizing h with
  | nil => simp [svcInfos]
  | cons s ss ih =>
    have hsz : dbSize (s :: ss) = svcSize s + dbSize ss := by simp [dbSize]
    cases ss with
    | nil => simp [svcInfos]
    | cons t ss =>
      have h1 : 1 ≤ svcSize t := by unfold svcSize; omega
      have h2 : dbSize (t :: ss) = svcSize t + dbSize ss := by simp [dbSize]
      intro i hi
      have : (svcInfos (s :: t :: ss) h).dropLast =
          ⟨s.uuid, h, h + svcSize s - 1⟩ :: (svcInfos (t :: ss) (h + svcSize s)).dropLast := by
        rw [svcInfos, svcInfos, List.dropLast_cons_of_ne_nil (by simp)]
        rfl
      rw [this] at hi
      rcases List.mem_cons.1 hi with rfl | hi
      · simp only []; omega
      · exact ih _ (by omega) i hi

/-- The last service of a list of at least one stops the scan. -/
theorem svcScan_stops (filter : Option (List Bytes)) (is : List SvcInfo) (i : SvcInfo) (hi : i.endHandle = 0xFFFF) (acc : List SvcInfo) :
    (svcScan filter (is ++ [i]) acc).1 = true := by
  induction is generalizing acc with
  | nil => simp [svcScan, hi]
  | cons j is ih =>
    simp only [List.cons_append, svcScan]
    split
    · rfl
    · exact ih _

theorem svcInfos_end (ss : List (Svc α)) (h : Nat) (hne : ss ≠ []) : ∃ is i, svcInfos ss h = is ++ [i] ∧ i.endHandle = 0xFFFF := by
  induction ss generalizing h with
  | nil => exact absurd rfl hne
  | cons s ss ih =>
    cases ss with
    | nil => exact ⟨[], _, rfl, rfl⟩
    | cons t ss =>
      obtain ⟨is, i, h1, h2⟩ := ih (h + svcSize s) (by simp)
      exact ⟨_ :: is, i, by rw [svcInfos, h1]; rfl, h2⟩

theorem discoverServices_loop (filter : Option (List Bytes)) (srv : Server (CState α)) (pre post : List (Svc α)) (hpost : post ≠ [])
    (hdb : srv.db = newDB (pre ++ post) 1) (hm : 23 ≤ srv.mtu) (hf : 1 + dbSize (pre ++ post) ≤ 65536)
    (hp : ∀ t ∈ post, UuidOk t.uuid ∧ ∀ c ∈ t.chars, UuidOk c.uuid) (n tx rx : Nat) (hn : 7 ≤ n)
    (c : Cli (Server (CState α))) (hc : Like c srv n tx rx) (acc : List SvcInfo) (fuel : Nat) (hfuel : post.length ≤ fuel) :
    ∃ c', Like c' srv n tx rx ∧ discoverServices serverPeer filter fuel c (1 + dbSize pre) acc =
      .ok (some (c', (svcScan filter (svcInfos post (1 + dbSize pre)) acc).2)) := by
  induction fuel generalizing pre post c acc with
  | zero => cases post with
    | nil => exact absurd rfl hpost
    | cons s post => simp at hfuel
  | succ fuel ih =>
    cases post with
    | nil => exact absurd rfl hpost
    | cons s post =>
      have hps := hp s (by simp)
      obtain ⟨k, hk0, hk, hkl, hreq⟩ := readByGroup_services srv pre post s hdb hm hf hps.1 (fun t ht => (hp t ht).2)
      have hsz : dbSize (pre ++ s :: post) = dbSize pre + dbSize (s :: post) := by simp [dbSize]
      have h1s : 1 ≤ svcSize s := by unfold svcSize; omega
      have hsz2 : dbSize (s :: post) = svcSize s + dbSize post := by simp [dbSize]
      have hbound := svcInfos_bound (s :: post) (1 + dbSize pre) (by omega)
      have hL : UuidOk s.uuid := hps.1
      have hlist : ∀ i ∈ (svcInfos (s :: post) (1 + dbSize pre)).take k, i.uuid.length = s.uuid.length ∧ i.handle < 65536 ∧ i.endHandle < 65536 :=
        fun i hi => ⟨hkl i hi, hbound i (List.mem_of_mem_take hi)⟩
      have hbl : ∀ l : List SvcInfo, (∀ i ∈ l, i.uuid.length = s.uuid.length) → (l.flatMap svcEntry).length = l.length * (4 + s.uuid.length) := by
        intro l
        induction l with
        | nil => simp
        | cons i l ihl =>
          intro h
          simp only [List.flatMap_cons, List.length_append, ihl (fun x hx => h x (by simp [hx])), List.length_cons, Nat.add_mul, Nat.one_mul]
          have := h i (by simp)
          simp only [svcEntry, List.length_append, put16_length]; omega
      have hbl' := hbl _ hkl
      have htl : ((svcInfos (s :: post) (1 + dbSize pre)).take k).length = k := by
        rw [List.length_take, svcInfos_length]; omega
      rw [htl] at hbl'
      obtain ⟨c1, hc1, hr1⟩ := readList_ok hc (op := 0x10) (by simp; omega) (show 1 + dbSize pre ≤ 0xFFFF by omega) (.inl rfl) (.inr rfl)
        (by omega) (by unfold UuidOk at hL; omega)
        (by rw [hbl']; exact Nat.le_trans (by omega) (Nat.le_mul_of_pos_left _ hk0)) (by rw [hbl']; exact Nat.mul_mod_left _ _) hreq
      have hsplit : svcInfos (s :: post) (1 + dbSize pre) =
          (svcInfos (s :: post) (1 + dbSize pre)).take k ++ (svcInfos (s :: post) (1 + dbSize pre)).drop k := (List.take_append_drop _ _).symm
      rw [discoverServices]
      unfold readByGroupType
      rw [hr1]
      simp only []
      rw [svcLoop_scan filter _ _ _ _ hlist]
      rw [hsplit, svcScan_append, List.take_append_of_le_length (by rw [htl]; omega), List.take_take, Nat.min_self]
      by_cases hstop : (svcScan filter ((svcInfos (s :: post) (1 + dbSize pre)).take k) acc).1 = true
      · rw [if_pos hstop, if_pos hstop]
        exact ⟨c1, hc1, rfl⟩
      · rw [if_neg hstop, if_neg hstop]
        have hklt : k < (s :: post).length := by
          rcases Nat.lt_or_ge k (s :: post).length with h | h
          · exact h
          · exfalso
            obtain ⟨is, i, h1, h2⟩ := svcInfos_end (s :: post) (1 + dbSize pre) (by simp)
            rw [List.take_of_length_le (by rw [svcInfos_length]; exact h), h1] at hstop
            exact hstop (svcScan_stops _ _ _ h2 _)
        rw [nextStart_take _ _ _ _ hk0 hklt, svcInfos_drop]
        have hpre : 1 + dbSize pre + dbSize ((s :: post).take k) = 1 + dbSize (pre ++ (s :: post).take k) := by simp [dbSize]; omega
        rw [hpre]
        exact ih (pre ++ (s :: post).take k) ((s :: post).drop k) (by intro h; rw [List.drop_eq_nil_iff] at h; omega)
          (by rw [hdb, List.append_assoc, List.take_append_drop]) (by rw [List.append_assoc, List.take_append_drop]; exact hf)
          (fun t ht => hp t (List.mem_of_mem_drop ht)) c1 hc1 _ (by simp only [List.length_drop]; omega)

/-- C15 with the state of the client afterwards. -/
theorem discover_services_like (ss : List (Svc α)) (srv : Server (CState α)) (hdb : srv.db = newDB ss 1) (hm : 23 ≤ srv.mtu)
    (hf : 1 + dbSize ss ≤ 65536) (hp : ∀ t ∈ ss, UuidOk t.uuid ∧ ∀ c ∈ t.chars, UuidOk c.uuid)
    (c : Cli (Server (CState α))) (hc : c.peer = srv) (hb : 7 ≤ c.buf.length) (fuel : Nat) (hfuel : ss.length < fuel) :
    ∃ c', Like c' srv c.buf.length c.txMTU c.rxMTU ∧ discoverServices serverPeer none fuel c 1 [] = .ok (some (c', svcInfos ss 1)) := by
  cases ss with
  | nil =>
    cases fuel with
    | zero => simp at hfuel
    | succ fuel =>
      refine ⟨c, ⟨hc, rfl, rfl, rfl⟩, ?_⟩
      have hreq : handleRequest srv (rangeReq 0x10 1 0xFFFF (put16 0x2800)) = .ok (srv, some (errorRsp 0x10 1 0x0A)) := by
        rw [handleRequest_readByGroup srv (by rw [hdb]; exact (table_handles _ _ (by simp [dbSize])).2) _ _ _ (by omega) (by omega) (by omega) (.inl rfl), hdb]
        rfl
      have := readList_error (c := c) ⟨hc, rfl, rfl, rfl⟩ (op := 0x10) (by simp; omega) (show 1 ≤ 0xFFFF by omega) (.inl rfl) hreq
      rw [discoverServices]
      unfold readByGroupType
      rw [this]; rfl
  | cons s ss =>
    obtain ⟨c', hc', h⟩ := discoverServices_loop none srv [] (s :: ss) (by simp) hdb hm hf hp c.buf.length c.txMTU c.rxMTU hb c
      ⟨hc, rfl, rfl, rfl⟩ [] fuel (by omega)
    refine ⟨c', hc', ?_⟩
    have h1 : 1 + dbSize ([] : List (Svc α)) = 1 := rfl
    rw [h1] at h
    rw [h, svcScan_all _ (svcInfos_last _ _ hf)]
    rfl

/-- **C15.** A client discovering the primary services of this library's server obtains every service, once, in order, with its UUID and its
first and last handle, for every table of services with 16- or 128-bit UUIDs and every MTU of at least 23. One request per service is enough. The
server is left as it was. -/
theorem discover_services (ss : List (Svc α)) (srv : Server (CState α)) (hdb : srv.db = newDB ss 1) (hm : 23 ≤ srv.mtu)
    (hf : 1 + dbSize ss ≤ 65536) (hp : ∀ t ∈ ss, UuidOk t.uuid ∧ ∀ c ∈ t.chars, UuidOk c.uuid)
    (c : Cli (Server (CState α))) (hc : c.peer = srv) (hb : 7 ≤ c.buf.length) (fuel : Nat) (hfuel : ss.length < fuel) :
    ∃ c', c'.peer = srv ∧ discoverServices serverPeer none fuel c 1 [] = .ok (some (c', svcInfos ss 1)) := by
  obtain ⟨c', h1, h2⟩ := discover_services_like ss srv hdb hm hf hp c hc hb fuel hfuel
  exact ⟨c', h1.peer, h2⟩

/-- **C15.** With a filter, the result is the services whose UUID is in the filter, in table order, but never more than the filter has
entries. -/
theorem discover_services_filtered (ss : List (Svc α)) (hne : ss ≠ []) (l : List Bytes) (srv : Server (CState α)) (hdb : srv.db = newDB ss 1) (hm : 23 ≤ srv.mtu)
    (hf : 1 + dbSize ss ≤ 65536) (hp : ∀ t ∈ ss, UuidOk t.uuid ∧ ∀ c ∈ t.chars, UuidOk c.uuid)
    (c : Cli (Server (CState α))) (hc : c.peer = srv) (hb : 7 ≤ c.buf.length) (fuel : Nat) (hfuel : ss.length < fuel) :
    ∃ c', c'.peer = srv ∧ discoverServices serverPeer (some l) fuel c 1 [] =
      .ok (some (c', ((svcInfos ss 1).filter fun i => l.contains i.uuid).take l.length)) := by
  obtain ⟨c', hc', h⟩ := discoverServices_loop (some l) srv [] ss hne hdb hm hf hp c.buf.length c.txMTU c.rxMTU hb c
      ⟨hc, rfl, rfl, rfl⟩ [] fuel (by omega)
  refine ⟨c', hc'.peer, ?_⟩
  have h1 : 1 + dbSize ([] : List (Svc α)) = 1 := rfl
  rw [h1] at h
  rw [h, svcScan_filter _ _ (svcInfos_last _ _ hf) _ (by simp) (fun e => List.length_eq_zero_iff.1 (by simpa using e.symm))]
  rfl

end Ble.Props
