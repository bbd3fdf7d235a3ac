import Verif.Client.CharLemmas
import Verif.Props.Discovery
set_option autoImplicit false

/-!
# Discovery of characteristics and descriptors against this library's own server (C46), and of the whole profile
-/

namespace Ble.Props

open Ble.Att Ble.Spec Ble.Client

variable {α σ : Type}

theorem charEntries_length (cs : List (Char α)) (h L : Nat) (hL : ∀ c ∈ cs, 5 + c.uuid.length = L) : (charEntries cs h).length = cs.length * L := by
  induction cs generalizing h with
  | nil => simp [charEntries]
  | cons c cs ih =>
    have := hL c (by simp)
    simp only [charEntries, List.length_append, ih _ (fun x hx => hL x (by simp [hx])), List.length_cons, put16_length, Nat.add_mul, Nat.one_mul]
    omega

/-- Read By Type for characteristic declarations over a stretch of the table: the next ones, all of the first one's UUID size. -/
theorem readByType_chars (srv : Server (CState α)) (hm : 23 ≤ srv.mtu) (hc : Consecutive srv.db) (lo E h : Nat) (h0 : 0 < lo) (h1 : lo ≤ E)
    (h2 : E < 65536) (P : List (Attr (CState α))) (c : Char α) (cs : List (Char α))
    (hin : inRange srv.db lo E = P ++ charsAt (c :: cs) h) (hP : P.filter (fun a => a.typ == put16 0x2803) = []) (hok : CharsOk (c :: cs)) :
    ∃ n, 0 < n ∧ n ≤ (c :: cs).length ∧ (∀ x ∈ (c :: cs).take n, 5 + x.uuid.length = 5 + c.uuid.length) ∧
      handleRequest srv (rangeReq 0x08 lo E (put16 0x2803)) =
        .ok (srv, some (0x09 :: UInt8.ofNat (5 + c.uuid.length) :: charEntries ((c :: cs).take n) h)) := by
  have hu : UuidOk c.uuid := (hok c (by simp)).1
  unfold UuidOk at hu
  have hf : (inRange srv.db lo E).filter (fun a => a.typ == put16 0x2803) =
      { h := h, endh := h + charSize c - 1, typ := characteristicUUID, v := some (c.prop :: put16 (h + 1) ++ c.uuid) } :: charDecls cs (h + charSize c) := by
    rw [hin, List.filter_append, hP, charsAt_filter _ _ hok]; rfl
  have hL : 5 + c.uuid.length = min (min (2 + (c.prop :: put16 (h + 1) ++ c.uuid).length) 255) (srv.mtu - 2) := by
    simp only [List.length_cons, List.length_append, put16_length]; omega
  have hreq := readByType_static srv hm hc lo E (put16 0x2803) h0 h1 h2 (.inl rfl) _ _ _ _ hf rfl (charDecls_static _ _) hL
  obtain ⟨n, hn1, hn2, hn3⟩ := charDecls_takeWhile cs (h + charSize c) (5 + c.uuid.length) ((srv.mtu - 2 - (5 + c.uuid.length)) / (5 + c.uuid.length))
  refine ⟨n + 1, by omega, by simp; omega, ?_, ?_⟩
  · intro x hx
    rw [List.take_succ_cons] at hx
    rcases List.mem_cons.1 hx with rfl | hx
    · rfl
    · exact hn2 x hx
  · rw [hreq, hn3, List.take_succ_cons, charEntries, List.take_of_length_le (by simp only [List.length_cons, List.length_append, put16_length]; omega)]
    rfl

theorem charOuter_loop (srv : Server (CState α)) (hm : 23 ≤ srv.mtu) (hcs : Consecutive srv.db) (E : Nat) (hE : E < 65536) (n tx rx : Nat) (hn : 7 ≤ n)
    (cpre crest : List (Char α)) (h0 lo : Nat) (A P C : List (Attr (CState α)))
    (hd : srv.db.attrs = A ++ ((P ++ charsAt crest (h0 + charsSize cpre)) ++ C)) (hlo : lo = srv.db.base + A.length) (hlo0 : 0 < lo)
    (hPl : lo + P.length = h0 + charsSize cpre) (hP : P.filter (fun a => a.typ == put16 0x2803) = []) (hok : CharsOk crest)
    (hEnd : E + 1 = lo + P.length + charsSize crest ∨ (C = [] ∧ lo + P.length + charsSize crest ≤ E + 1))
    (hb : h0 + charsSize cpre + charsSize crest < 65536)
    (c : Cli (Server (CState α))) (hc : Like c srv n tx rx) (fuel : Nat) (hfuel : crest.length < fuel) :
    ∃ c', Like c' srv n tx rx ∧ charOuter serverPeer E fuel c lo (charInfos E cpre h0) = .ok (some (c', charInfos E (cpre ++ crest) h0)) := by
  induction fuel generalizing cpre crest lo A P c with
  | zero => omega
  | succ fuel ih =>
    have hbl : (P ++ charsAt crest (h0 + charsSize cpre)).length = P.length + charsSize crest := by
      rw [List.length_append, charsAt_length]; rfl
    have hin : inRange srv.db lo E = P ++ charsAt crest (h0 + charsSize cpre) :=
      inRange_block srv.db hcs A _ C hd lo E hlo (by rw [hbl, ← Nat.add_assoc]; exact hEnd)
    rw [charOuter]
    by_cases hgt : lo > E
    · rw [if_pos hgt]
      have : crest = [] := by
        cases crest with
        | nil => rfl
        | cons d ds => have := charSize_pos d; rw [charsSize_cons] at hEnd; omega
      subst this
      exact ⟨c, hc, by rw [List.append_nil]; rfl⟩
    · rw [if_neg hgt]
      cases crest with
      | nil =>
        have hreq := readByType_not_found srv hcs lo E (put16 0x2803) hlo0 (by omega) hE (.inl rfl) (by
          intro a ha
          rw [hin] at ha
          simp only [charsAt, List.append_nil] at ha
          intro e
          have : a ∈ P.filter (fun a => a.typ == put16 0x2803) := List.mem_filter.2 ⟨ha, by simp [e]⟩
          rw [hP] at this; simp at this)
        have := readList_error hc (op := 0x08) (by simp; omega) (show lo ≤ E by omega) (.inl rfl) hreq
        unfold readByType
        rw [this]
        exact ⟨c, hc, by rw [List.append_nil]; rfl⟩
      | cons d ds =>
        obtain ⟨k, hk0, hk, hkl, hreq⟩ := readByType_chars srv hm hcs lo E _ hlo0 (by omega) hE P d ds hin hP hok
        have hdu : UuidOk d.uuid := (hok d (by simp)).1
        unfold UuidOk at hdu
        have htl : ((d :: ds).take k).length = k := by rw [List.length_take]; omega
        have hel := charEntries_length _ (h0 + charsSize cpre) _ hkl
        rw [htl] at hel
        obtain ⟨c1, hc1, hr1⟩ := readList_ok hc (op := 0x08) (by simp; omega) (show lo ≤ E by omega) (.inl rfl) (.inl rfl)
          (by omega) (by omega) (by rw [hel]; exact Nat.le_trans (by omega) (Nat.le_mul_of_pos_left _ hk0)) (by rw [hel]; exact Nat.mul_mod_left _ _) hreq
        unfold readByType
        rw [hr1]
        simp only []
        have hsum : charsSize (d :: ds) = charsSize ((d :: ds).take k) + charsSize ((d :: ds).drop k) := by
          rw [← charsSize_append, List.take_append_drop]
        rw [charLoop_entries E _ _ cpre h0 lo hkl (by omega)]
        simp only []
        -- the last characteristic of the response
        obtain ⟨cs', cl, hcl⟩ : ∃ cs' cl, (d :: ds).take k = cs' ++ [cl] := by
          have : (d :: ds).take k ≠ [] := by intro e; rw [e] at htl; simp at htl; omega
          exact ⟨_, _, (List.dropLast_concat_getLast this).symm⟩
        have hsplit : d :: ds = cs' ++ [cl] ++ (d :: ds).drop k := by rw [← hcl, List.take_append_drop]
        have hclm : cl ∈ d :: ds := by rw [hsplit]; simp
        have hokl := hok cl hclm
        have hds := attachCCCD_length cl
        have hs1 : charsSize ((d :: ds).take k) = charsSize cs' + charSize cl := by
          rw [hcl, charsSize_append, charsSize_cons]; simp [charsSize]
        rw [hcl, lastStart_concat, ← hcl]
        have hcat : cpre ++ (d :: ds) = (cpre ++ (d :: ds).take k) ++ (d :: ds).drop k := by rw [List.append_assoc, List.take_append_drop]
        have hh : h0 + charsSize (cpre ++ (d :: ds).take k) = h0 + charsSize cpre + charsSize cs' + charSize cl := by
          rw [charsSize_append, hs1]; omega
        rw [hcat]
        have hsplit2 : charsAt (d :: ds) (h0 + charsSize cpre) = charsAt cs' (h0 + charsSize cpre) ++
            (charAt cl (h0 + charsSize cpre + charsSize cs') ++
              charsAt ((d :: ds).drop k) (h0 + charsSize cpre + charsSize cs' + charSize cl)) := by
          have e1 : ((cs' ++ [cl]).map charSize).sum = charsSize cs' + charSize cl := by simp [charsSize]
          have e2 : (cs'.map charSize).sum = charsSize cs' := rfl
          conv => lhs; rw [hsplit, charsAt_append, charsAt_append, e1, e2]
          simp only [charsAt, List.append_nil, List.append_assoc]
          rw [Nat.add_assoc (h0 + charsSize cpre)]
        refine ih (cpre ++ (d :: ds).take k) ((d :: ds).drop k) (h0 + charsSize cpre + charsSize cs' + 2)
          (A ++ P ++ charsAt cs' (h0 + charsSize cpre) ++ (charAt cl (h0 + charsSize cpre + charsSize cs')).take 2)
          ((charAt cl (h0 + charsSize cpre + charsSize cs')).drop 2) ?_ ?_ (by omega) ?_ ?_ (fun x hx => hok x (List.mem_of_mem_drop hx)) ?_ ?_
          c1 hc1 (by rw [List.length_drop]; omega)
        · rw [hd, hsplit2, hh]
          simp only [List.append_assoc]
          congr 3
        · simp only [List.length_append, charsAt_length, List.length_take, charAt_length]
          have := charSize_pos cl
          have e2 : (cs'.map charSize).sum = charsSize cs' := rfl
          omega
        · rw [List.length_drop, charAt_length, hh]
          have := charSize_pos cl
          omega
        · simp only [charAt, List.drop_succ_cons, List.drop_zero]
          apply descsAt_no_decl
          intro x hx
          rw [attachCCCD_descs] at hx
          exact (allDescs_ok hokl.2.2 x hx).2
        · rw [List.length_drop, charAt_length]
          have := charSize_pos cl
          rcases hEnd with h | ⟨h, h'⟩
          · left; omega
          · right; exact ⟨h, by omega⟩
        · rw [hh]; omega

/-- Last handle of a service that is followed by `post`. -/
def svcEnd (pre post : List (Svc α)) (s : Svc α) : Nat := if post.isEmpty then 0xFFFF else 1 + dbSize pre + svcSize s - 1

/-- Declaration of a service that follows `pre` and is followed by `post`. -/
def svcDecl (pre post : List (Svc α)) (s : Svc α) : Attr (CState α) :=
  { h := 1 + dbSize pre, endh := svcEnd pre post s, typ := primaryServiceUUID, v := some s.uuid }

/-- Where the services `pre` end and the characteristics of the next service are. -/
theorem table_split (pre post : List (Svc α)) (s : Svc α) (hf : 1 + dbSize (pre ++ s :: post) ≤ 65536) :
    ∃ A, (newDB (pre ++ s :: post) 1).attrs =
      A ++ (([svcDecl pre post s] ++ charsAt s.chars (1 + dbSize pre + 1)) ++ svcsAt post (1 + dbSize pre + svcSize s)) ∧ A.length = dbSize pre := by
  rw [newDB_attrs _ _ hf (by simp)]
  obtain ⟨A, h1, h2⟩ := svcsAt_split pre post s 1
  exact ⟨A, by rw [h1]; simp only [svcAt, svcDecl, svcEnd, List.append_assoc, List.cons_append, List.nil_append], h2⟩

/-- **C46.** Discovering the characteristics of any service of this library's server returns every characteristic of it, once, in order, with its
UUID, properties, declaration handle, value handle and last handle. -/
theorem discover_characteristics (filter : Option (List Bytes)) (pre post : List (Svc α)) (s : Svc α) (srv : Server (CState α))
    (hdb : srv.db = newDB (pre ++ s :: post) 1) (hm : 23 ≤ srv.mtu) (hf : 1 + dbSize (pre ++ s :: post) ≤ 65535) (hok : CharsOk s.chars)
    (c : Cli (Server (CState α))) (hc : c.peer = srv) (hb : 7 ≤ c.buf.length) (fuel : Nat) (hfuel : s.chars.length < fuel) :
    ∃ c', Like c' srv c.buf.length c.txMTU c.rxMTU ∧
      discoverCharacteristics serverPeer filter fuel c ⟨s.uuid, 1 + dbSize pre, svcEnd pre post s⟩ =
        .ok (some (c', (charInfos (svcEnd pre post s) s.chars (1 + dbSize pre + 1)).filter fun x => kept filter x.uuid)) := by
  obtain ⟨A, hA, hAl⟩ := table_split pre post s (by omega)
  have hcs : Consecutive srv.db := by rw [hdb]; exact (table_handles _ _ (by omega)).2
  have hsz : dbSize (pre ++ s :: post) = dbSize pre + svcSize s + dbSize post := by simp [dbSize]; omega
  have hsv : svcSize s = 1 + charsSize s.chars := rfl
  have hnil : charsSize ([] : List (Char α)) = 0 := rfl
  obtain ⟨c', hc', hr⟩ := charOuter_loop srv hm hcs (svcEnd pre post s) (by unfold svcEnd; split <;> omega) c.buf.length c.txMTU c.rxMTU hb [] s.chars
    (1 + dbSize pre + 1) (1 + dbSize pre) A
    [svcDecl pre post s] (svcsAt post (1 + dbSize pre + svcSize s)) (by rw [hdb, hA]; rfl) (by rw [hdb, hAl]; rfl) (by omega) rfl rfl hok
    (by
      unfold svcEnd
      simp only [List.length_cons, List.length_nil]
      cases post with
      | nil => right; exact ⟨rfl, by simp only [List.isEmpty_nil, if_true]; omega⟩
      | cons t post => left; simp only [List.isEmpty_cons, if_neg Bool.false_ne_true]; omega)
    (by omega) c ⟨hc, rfl, rfl, rfl⟩ fuel hfuel
  refine ⟨c', hc', ?_⟩
  have hr' : charOuter serverPeer (svcEnd pre post s) fuel c (1 + dbSize pre) [] =
      .ok (some (c', charInfos (svcEnd pre post s) s.chars (1 + dbSize pre + 1))) := hr
  unfold discoverCharacteristics
  simp only [hr', Go.bind_ok]
  rfl

/-! ## Descriptors -/

theorem findInformation_error {s s' : Server σ} {c : Cli (Server σ)} {n tx rx : Nat} (hc : Like c s n tx rx) {lo hi : Nat}
    {e : UInt8} (hb : 5 ≤ n) (h0 : 0 < lo) (hle : lo ≤ hi) (h : handleRequest s (rangeReq 0x04 lo hi []) = .ok (s', some (errorRsp 0x04 lo e))) :
    findInformation serverPeer c lo hi = .err (.att e) := by
  obtain ⟨c', hc', hs⟩ := send_server hc (req := rangeReq 0x04 lo hi []) (op := 0x01)
    (by simp only [rangeReq, List.length_cons, List.length_append, put16_length, List.length_nil]; omega) h rfl (.inl rfl)
  unfold findInformation
  rw [if_neg (by omega)]
  unfold rangeReq at hs
  rw [List.append_nil] at hs
  rw [hs]
  simp only [Go.bind_ok, checkError_error, Go.bind_err]

theorem findInformation_ok {s s' : Server σ} {c : Cli (Server σ)} {n tx rx : Nat} (hc : Like c s n tx rx) {lo hi : Nat}
    {f : Nat} {body : Bytes} (hb : 5 ≤ n) (h0 : 0 < lo) (hle : lo ≤ hi) (hf : f = 1 ∨ f = 2) (hbody : 4 ≤ body.length)
    (hmod : body.length % (if f = 1 then 4 else 18) = 0)
    (h : handleRequest s (rangeReq 0x04 lo hi []) = .ok (s', some (0x05 :: UInt8.ofNat f :: body))) :
    ∃ c', Like c' s' n tx rx ∧ findInformation serverPeer c lo hi = .ok (c', f, body) := by
  obtain ⟨c', hc', hs⟩ := send_server hc (req := rangeReq 0x04 lo hi []) (op := 0x05)
    (by simp only [rangeReq, List.length_cons, List.length_append, put16_length, List.length_nil]; omega) h rfl (.inr rfl)
  refine ⟨c', hc', ?_⟩
  unfold findInformation
  rw [if_neg (by omega)]
  unfold rangeReq at hs
  rw [List.append_nil] at hs
  rw [hs]
  simp only [Go.bind_ok]
  rw [checkError_other (by decide)]
  simp only [Go.bind_ok, List.length_cons]
  rw [if_neg (by omega)]
  simp only [index_cons_succ, index_cons_zero, Go.bind_ok]
  rcases hf with rfl | rfl
  · rw [if_neg (by simpa using hmod), if_neg (by simp)]; rfl
  · rw [if_neg (by simp), if_neg (by simpa using hmod)]; rfl

theorem descsAt_takeWhile_pos (r : CharRef) (d : Desc α) (ds : List (Desc α)) (h : Nat) :
    (genDescAttr r d h).typ.length = (descUUID d).length := by rw [genDescAttr_typ]

theorem descEntries_length (ds : List (Desc α)) (h L : Nat) (hL : ∀ d ∈ ds, (descUUID d).length = L) : (descEntries ds h).length = ds.length * (2 + L) := by
  induction ds generalizing h with
  | nil => simp [descEntries]
  | cons c cs ih =>
    have := hL c (by simp)
    simp only [descEntries, List.length_append, ih _ (fun x hx => hL x (by simp [hx])), List.length_cons, put16_length, Nat.add_mul, Nat.one_mul]
    omega

theorem descInfos_append (ds es : List (Desc α)) (h : Nat) : descInfos (ds ++ es) h = descInfos ds h ++ descInfos es (h + ds.length) := by
  induction ds generalizing h with
  | nil => simp [descInfos]
  | cons d ds ih => simp only [List.cons_append, descInfos, ih, List.length_cons]; congr 3; omega

theorem descsAt_append (r : CharRef) (ds es : List (Desc α)) (h : Nat) : descsAt r (ds ++ es) h = descsAt r ds h ++ descsAt r es (h + ds.length) := by
  induction ds generalizing h with
  | nil => simp [descsAt]
  | cons d ds ih => simp only [List.cons_append, descsAt, ih, List.length_cons]; congr 3; omega

theorem descsAt_mem_take (r : CharRef) (ds : List (Desc α)) (h n L : Nat) (hL : ∀ b ∈ (descsAt r ds h).take n, b.typ.length = L) :
    ∀ d ∈ ds.take n, (descUUID d).length = L := by
  induction ds generalizing h n with
  | nil => simp
  | cons d ds ih =>
    cases n with
    | zero => simp
    | succ n =>
      simp only [descsAt, List.take_succ_cons] at hL ⊢
      intro x hx
      rcases List.mem_cons.1 hx with rfl | hx
      · have := hL _ (List.mem_cons_self); rwa [genDescAttr_typ] at this
      · exact ih (h + 1) n (fun b hb => hL b (List.mem_cons_of_mem _ hb)) x hx

theorem descOuter_loop (srv : Server (CState α)) (hm : 23 ≤ srv.mtu) (hcs : Consecutive srv.db) (E : Nat) (hE : E < 65536) (n tx rx : Nat) (hn : 5 ≤ n)
    (r : CharRef) (ds : List (Desc α)) (lo : Nat) (A C : List (Attr (CState α)))
    (hd : srv.db.attrs = A ++ (descsAt r ds lo ++ C)) (hlo : lo = srv.db.base + A.length) (hlo0 : 0 < lo)
    (hok : ∀ d ∈ ds, UuidOk (descUUID d))
    (hEnd : E + 1 = lo + ds.length ∨ (C = [] ∧ lo + ds.length ≤ E + 1)) (hb : lo + ds.length < 65536) (acc : List DescInfo)
    (c : Cli (Server (CState α))) (hc : Like c srv n tx rx) (fuel : Nat) (hfuel : ds.length < fuel) :
    ∃ c', Like c' srv n tx rx ∧ descOuter serverPeer E fuel c lo acc = .ok (some (c', acc ++ descInfos ds lo)) := by
  induction fuel generalizing ds lo A c acc with
  | zero => omega
  | succ fuel ih =>
    have hin : inRange srv.db lo E = descsAt r ds lo :=
      inRange_block srv.db hcs A _ C hd lo E hlo (by rw [descsAt_length]; exact hEnd)
    rw [descOuter]
    by_cases hgt : lo > E
    · rw [if_pos hgt]
      have : ds = [] := by
        cases ds with
        | nil => rfl
        | cons d ds => simp only [List.length_cons] at hEnd; omega
      subst this
      exact ⟨c, hc, by simp [descInfos]⟩
    · rw [if_neg hgt]
      have hspec := findInfo_spec srv hm hcs lo E hlo0 (by omega) hE
      cases ds with
      | nil =>
        have hreq := hspec.1 (by rw [hin]; rfl)
        rw [findInformation_error hc hn hlo0 (by omega) hreq]
        exact ⟨c, hc, by simp [descInfos]⟩
      | cons d ds =>
        obtain ⟨k, hk0, hkd, hreq, hall⟩ := hspec.2 (genDescAttr r d lo) (descsAt r ds (lo + 1)) (by rw [hin]; rfl)
          (by rw [genDescAttr_typ]; exact hok d (by simp))
        rw [hin, genDescAttr_typ] at *
        rw [descsAt_take_entries] at hreq
        have hL := descsAt_mem_take r (d :: ds) lo k _ hall
        have hkl : k ≤ (d :: ds).length := by
          have h1 : ((descsAt r (d :: ds) lo).takeWhile fun b => b.typ.length == (descUUID d).length).length ≤ (descsAt r (d :: ds) lo).length :=
            (List.takeWhile_sublist _).length_le
          rw [descsAt_length] at h1
          omega
        have htl : ((d :: ds).take k).length = k := by rw [List.length_take]; omega
        have hel := descEntries_length _ lo _ hL
        rw [htl] at hel
        have hu := hok d (by simp)
        unfold UuidOk at hu
        have hfm : (if (descUUID d).length = 2 then (1 : UInt8) else 2) = UInt8.ofNat (if (descUUID d).length = 2 then 1 else 2) := by split <;> rfl
        rw [hfm] at hreq
        obtain ⟨c1, hc1, hr1⟩ := findInformation_ok hc hn hlo0 (show lo ≤ E by omega) (by split <;> simp)
          (by rw [hel]; exact Nat.le_trans (by omega) (Nat.le_mul_of_pos_left _ hk0))
          (by rw [hel]
              rcases hu with h | h
              · simp only [h, if_true]; exact Nat.mul_mod_left _ _
              · simp only [h]; exact Nat.mul_mod_left _ _) hreq
        rw [hr1]
        simp only []
        have hlen : (if (if (descUUID d).length = 2 then 1 else 2) = 2 then 18 else 4) = 2 + (descUUID d).length := by
          rcases hu with h | h <;> simp [h]
        rw [hlen, descLoop_entries _ _ _ _ _ hL (by rw [htl]; omega), htl]
        simp only []
        have hne : ¬ (d :: ds).take k = [] := by intro e; rw [e] at htl; simp at htl; omega
        rw [if_neg hne]
        have hcat : descInfos (d :: ds) lo = descInfos ((d :: ds).take k) lo ++ descInfos ((d :: ds).drop k) (lo + k) := by
          conv => lhs; rw [← List.take_append_drop k (d :: ds)]
          rw [descInfos_append, htl]
        rw [hcat, ← List.append_assoc]
        refine ih ((d :: ds).drop k) (lo + k) (A ++ descsAt r ((d :: ds).take k) lo) ?_ ?_ (by omega) (fun x hx => hok x (List.mem_of_mem_drop hx)) ?_ ?_
          _ c1 hc1 (by rw [List.length_drop]; omega)
        · rw [hd]
          conv => lhs; rw [← List.take_append_drop k (d :: ds)]
          rw [descsAt_append, htl]
          simp only [List.append_assoc]
        · rw [List.length_append, descsAt_length, htl]; omega
        · rw [List.length_drop]
          rcases hEnd with h | ⟨h, h'⟩
          · left; omega
          · right; exact ⟨h, by omega⟩
        · rw [List.length_drop]; omega

/-- **C46.** Discovering the descriptors of any characteristic of any service of this library's server returns every descriptor, once, in order,
with type and handle, and finds the CCCD if the characteristic can notify or indicate. -/
theorem discover_descriptors (filter : Option (List Bytes)) (pre post : List (Svc α)) (u : Bytes) (cpre cpost : List (Char α)) (ch : Char α)
    (srv : Server (CState α)) (hdb : srv.db = newDB (pre ++ ⟨u, cpre ++ ch :: cpost⟩ :: post) 1) (hm : 23 ≤ srv.mtu)
    (hf : 1 + dbSize (pre ++ ⟨u, cpre ++ ch :: cpost⟩ :: post) ≤ 65535) (hok : ∀ d ∈ ch.descs, UuidOk (descUUID d))
    (c : Cli (Server (CState α))) (hc : c.peer = srv) (hb : 7 ≤ c.buf.length) (fuel : Nat) (hfuel : (allDescs ch).length < fuel)
    (h : Nat) (hh : h = charHandle 1 pre cpre) (E : Nat)
    (hE : E = if cpost.isEmpty then svcEnd pre post ⟨u, cpre ++ ch :: cpost⟩ else h + charSize ch - 1) :
    ∃ c', Like c' srv c.buf.length c.txMTU c.rxMTU ∧ discoverDescriptors serverPeer filter fuel c ⟨ch.uuid, ch.prop, h, h + 1, E⟩ =
      .ok (some (c', (descInfos (allDescs ch) (h + 2)).filter (fun x => kept filter x.uuid),
        ((descInfos (allDescs ch) (h + 2)).filter fun x => x.uuid == put16 0x2902).getLast?)) := by
  obtain ⟨A, hA, hAl⟩ := table_split pre post ⟨u, cpre ++ ch :: cpost⟩ (by omega)
  have hcs : Consecutive srv.db := by rw [hdb]; exact (table_handles _ _ (by omega)).2
  have hsz : dbSize (pre ++ ⟨u, cpre ++ ch :: cpost⟩ :: post) = dbSize pre + svcSize ⟨u, cpre ++ ch :: cpost⟩ + dbSize post := by simp [dbSize]; omega
  have hsv : svcSize ⟨u, cpre ++ ch :: cpost⟩ = 1 + (charsSize cpre + (charSize ch + charsSize cpost)) := by
    show 1 + charsSize (cpre ++ ch :: cpost) = _
    rw [charsSize_append, charsSize_cons]
  have hcp : (cpre.map charSize).sum = charsSize cpre := rfl
  have hh' : h = 1 + dbSize pre + 1 + charsSize cpre := by rw [hh]; rfl
  have hdl := attachCCCD_length ch
  rw [attachCCCD_descs] at hdl
  have hadd : add16 (h + 1) 1 = h + 2 := by simp only [add16]; omega
  have hEb : E < 65536 := by
    rw [hE]; unfold svcEnd
    by_cases h1 : cpost.isEmpty = true <;> by_cases h2 : post.isEmpty = true <;> simp only [h1, h2, if_true, if_neg Bool.false_ne_true] <;> omega
  obtain ⟨c', hc', hr⟩ := descOuter_loop srv hm hcs E hEb
    c.buf.length c.txMTU c.rxMTU (by omega) (charRef ch h) (allDescs ch) (h + 2)
    (A ++ [svcDecl pre post ⟨u, cpre ++ ch :: cpost⟩] ++ charsAt cpre (1 + dbSize pre + 1) ++ (charAt ch h).take 2)
    (charsAt cpost (h + charSize ch) ++ svcsAt post (1 + dbSize pre + svcSize ⟨u, cpre ++ ch :: cpost⟩))
    (by
      rw [hdb, hA]
      simp only [charsAt_append, charsAt, hcp, ← hh', List.append_assoc]
      congr 3
      simp only [charAt, attachCCCD_descs, List.take_succ_cons, List.take_zero, List.cons_append, List.nil_append])
    (by
      simp only [List.length_append, hAl, charsAt_length, hcp, List.length_cons, List.length_nil, charAt, List.length_take]
      rw [hdb]
      show _ = 1 + _
      omega)
    (by omega) (by
      intro d hd
      unfold allDescs at hd
      rcases List.mem_append.1 hd with hd | hd
      · exact hok d hd
      · split at hd
        · rw [List.mem_singleton] at hd; subst hd; exact .inl rfl
        · simp at hd)
    (by
      rw [hE]
      cases cpost with
      | nil =>
        have : charsSize ([] : List (Char α)) = 0 := rfl
        simp only [List.isEmpty_nil, if_true, svcEnd]
        cases post with
        | nil => right; exact ⟨rfl, by simp only [List.isEmpty_nil, if_true]; omega⟩
        | cons t post => left; simp only [List.isEmpty_cons, if_neg Bool.false_ne_true]; omega
      | cons x xs => left; simp only [List.isEmpty_cons, if_neg Bool.false_ne_true]; omega)
    (by omega) [] c ⟨hc, rfl, rfl, rfl⟩ fuel hfuel
  refine ⟨c', hc', ?_⟩
  unfold discoverDescriptors
  simp only [hadd, hr, Go.bind_ok, List.nil_append]
  rfl

/-! ## The whole profile -/

theorem svcRun_eq {ex : Exchange σ} {fuel : Nat} {c c' : Cli σ} {start : Nat} {acc l : List SvcInfo}
    (h : discoverServices ex none fuel c start acc = .ok (some (c', l))) : svcRun ex fuel c start acc = (l, .ok (some c')) := by
  induction fuel generalizing c start acc with
  | zero => cases h
  | succ n ih =>
    rw [discoverServices] at h
    rw [svcRun]
    split at h <;> rename_i h1
    · cases h
    · cases h; rfl
    · cases h
    · split at h <;> rename_i h2
      · cases h
      · cases h
      · cases h; rfl
      · exact ih h

theorem profDescs_all (pre post : List (Svc α)) (u : Bytes) (cpre crest : List (Char α)) (srv : Server (CState α))
    (hdb : srv.db = newDB (pre ++ ⟨u, cpre ++ crest⟩ :: post) 1) (hm : 23 ≤ srv.mtu)
    (hf : 1 + dbSize (pre ++ ⟨u, cpre ++ crest⟩ :: post) ≤ 65535) (hok : CharsOk crest) (n tx rx : Nat) (hn : 7 ≤ n)
    (c : Cli (Server (CState α))) (hc : Like c srv n tx rx) (fuel : Nat) (hfuel : ∀ x ∈ crest, (allDescs x).length < fuel) (E h : Nat)
    (hE : E = svcEnd pre post ⟨u, cpre ++ crest⟩) (hh : h = charHandle 1 pre cpre) :
    ∃ c', Like c' srv n tx rx ∧ profDescs serverPeer fuel c ((charInfos E crest h).map fun i => { info := i }) =
      (charProfs E crest h, .ok (some c')) := by
  induction crest generalizing cpre c h with
  | nil => exact ⟨c, hc, rfl⟩
  | cons ch crest ih =>
    obtain ⟨c1, hc1, hr1⟩ := discover_descriptors none pre post u cpre crest ch srv hdb hm hf (fun d hd => ((hok ch (by simp)).2.2 d hd).1) c hc.peer
      (by rw [hc.buf]; exact hn) fuel (hfuel ch (by simp)) h hh (if crest.isEmpty then E else h + charSize ch - 1) (by rw [hE])
    have hk : (fun x : DescInfo => kept none x.uuid) = fun _ => true := by funext x; rfl
    rw [hk, List.filter_eq_self.2 (fun _ _ => rfl)] at hr1
    have e : cpre ++ ch :: crest = (cpre ++ [ch]) ++ crest := by simp
    rw [e] at hdb hf hE
    obtain ⟨c2, hc2, hr2⟩ := ih (cpre ++ [ch]) hdb hf (fun x hx => hok x (by simp [hx])) c1 (by rw [hc.buf, hc.tx, hc.rx] at hc1; exact hc1)
      (fun x hx => hfuel x (by simp [hx])) (h + charSize ch) hE (by rw [hh]; simp [charHandle, Nat.add_assoc])
    refine ⟨c2, hc2, ?_⟩
    simp only [charInfos, List.map_cons, profDescs, hr1, hr2, charProfs, List.nil_append]
    congr 3
    cases ((descInfos (allDescs ch) (h + 2)).filter fun x => x.uuid == put16 0x2902).getLast? <;> rfl

theorem profSvcs_all (pre post : List (Svc α)) (srv : Server (CState α)) (hdb : srv.db = newDB (pre ++ post) 1) (hm : 23 ≤ srv.mtu)
    (hf : 1 + dbSize (pre ++ post) ≤ 65535) (hok : ∀ s ∈ post, CharsOk s.chars) (n tx rx : Nat) (hn : 7 ≤ n)
    (c : Cli (Server (CState α))) (hc : Like c srv n tx rx) (fuel : Nat)
    (hfuel : ∀ s ∈ post, s.chars.length < fuel ∧ ∀ x ∈ s.chars, (allDescs x).length < fuel) :
    ∃ c', Like c' srv n tx rx ∧ profSvcs serverPeer fuel c ((svcInfos post (1 + dbSize pre)).map fun i => { info := i }) =
      (svcProfs post (1 + dbSize pre), .ok (some c')) := by
  induction post generalizing pre c with
  | nil => exact ⟨c, hc, rfl⟩
  | cons s post ih =>
    obtain ⟨c1, hc1, hr1⟩ := discover_characteristics none pre post s srv hdb hm hf (hok s (by simp)) c hc.peer
      (by rw [hc.buf]; exact hn) fuel (hfuel s (by simp)).1
    rw [hc.buf, hc.tx, hc.rx] at hc1
    have hk : (fun x : CharInfo => kept none x.uuid) = fun _ => true := by funext x; rfl
    rw [hk, List.filter_eq_self.2 (fun _ _ => rfl)] at hr1
    obtain ⟨c2, hc2, hr2⟩ := profDescs_all pre post s.uuid [] s.chars srv hdb hm hf (hok s (by simp)) n tx rx hn c1 hc1 fuel
      (hfuel s (by simp)).2 (svcEnd pre post s) (1 + dbSize pre + 1) rfl rfl
    have e : pre ++ s :: post = (pre ++ [s]) ++ post := by simp
    rw [e] at hdb hf
    obtain ⟨c3, hc3, hr3⟩ := ih (pre ++ [s]) hdb hf (fun x hx => hok x (by simp [hx])) c2 hc2 (fun x hx => hfuel x (by simp [hx]))
    refine ⟨c3, hc3, ?_⟩
    have hs : 1 + dbSize (pre ++ [s]) = 1 + dbSize pre + svcSize s := by simp [dbSize]; omega
    rw [hs] at hr3
    have he : (if post.isEmpty then 0xFFFF else 1 + dbSize pre + svcSize s - 1) = svcEnd pre post s := rfl
    simp only [svcInfos, List.map_cons, profSvcs, svcProfs, he, hr1, List.nil_append, hr2, hr3]

/-- Number of requests that is always enough for one list of the profile. -/
def enough (ss : List (Svc α)) : Nat := dbSize ss + 1

theorem enough_ok (ss : List (Svc α)) : ss.length < enough ss ∧
    ∀ s ∈ ss, s.chars.length < enough ss ∧ ∀ x ∈ s.chars, (allDescs x).length < enough ss := by
  have h1 : ∀ cs : List (Char α), cs.length ≤ charsSize cs ∧ ∀ x ∈ cs, (allDescs x).length ≤ charsSize cs := by
    intro cs
    induction cs with
    | nil => simp [charsSize]
    | cons c cs ih =>
      have hc := attachCCCD_length c
      rw [attachCCCD_descs] at hc
      rw [charsSize_cons]
      refine ⟨by simp only [List.length_cons]; omega, ?_⟩
      intro x hx
      rcases List.mem_cons.1 hx with rfl | hx
      · omega
      · have := ih.2 x hx; omega
  have h2 : ∀ ss : List (Svc α), ss.length ≤ dbSize ss ∧ ∀ s ∈ ss, charsSize s.chars ≤ dbSize ss := by
    intro ss
    induction ss with
    | nil => simp [dbSize]
    | cons s ss ih =>
      have hs : svcSize s = 1 + charsSize s.chars := rfl
      have hd : dbSize (s :: ss) = svcSize s + dbSize ss := by simp [dbSize]
      refine ⟨by simp only [List.length_cons]; omega, ?_⟩
      intro x hx
      rcases List.mem_cons.1 hx with rfl | hx
      · omega
      · have := ih.2 x hx; omega
  unfold enough
  refine ⟨by have := (h2 ss).1; omega, fun s hs => ⟨?_, fun x hx => ?_⟩⟩
  · have := (h2 ss).2 s hs; have := (h1 s.chars).1; omega
  · have := (h2 ss).2 s hs; have := (h1 s.chars).2 x hx; omega

/-- **C15, C46.** A first `DiscoverProfile` against this library's server returns the whole profile: every service, characteristic and descriptor,
each once and in order, with handles, properties and UUIDs, for every table of proper UUIDs and every MTU of at least 23. -/
theorem discover_profile (ss : List (Svc α)) (hp : Proper ss) (hf : 1 + dbSize ss ≤ 65535) (srv : Server (CState α)) (hdb : srv.db = newDB ss 1)
    (hm : 23 ≤ srv.mtu) (c : Cli (Server (CState α))) (hc : c.peer = srv) (hb : 7 ≤ c.buf.length) (force : Bool) :
    ∃ c', c'.peer = srv ∧ discoverProfile serverPeer (enough ss) force c none = (some (svcProfs ss 1), .ok (some c')) := by
  have hen := enough_ok ss
  obtain ⟨c1, hc1, hr1⟩ := discover_services_like ss srv hdb hm (by omega) (fun t ht => ⟨(hp t ht).1, fun c hc => ((hp t ht).2 c hc).1⟩) c hc hb _ hen.1
  have hrun := svcRun_eq hr1
  obtain ⟨c2, hc2, hr2⟩ := profSvcs_all [] ss srv hdb hm hf (fun s hs => (hp s hs).2) _ _ _ hb c1 hc1 _ hen.2
  refine ⟨c2, hc2.peer, ?_⟩
  have h1 : 1 + dbSize ([] : List (Svc α)) = 1 := rfl
  rw [h1] at hr2
  unfold discoverProfile
  simp only [Option.isSome_none, Bool.false_and, Option.getD_none, List.map_nil, List.length_nil, List.drop_zero, List.nil_append, hrun, hr2]
  rfl

/-- **C50, the part that holds.** Missing: a `DiscoverProfile` after a failed one or a forced second one (`discover_profile_after_failure`, `discover_profile_forced_doubles`: false). -/
theorem discover_profile_partial (ss : List (Svc α)) (hp : Proper ss) (hf : 1 + dbSize ss ≤ 65535) (srv : Server (CState α)) (hdb : srv.db = newDB ss 1)
    (hm : 23 ≤ srv.mtu) (c : Cli (Server (CState α))) (hc : c.peer = srv) (hb : 7 ≤ c.buf.length) (force : Bool) :
    ∃ c', c'.peer = srv ∧ discoverProfile serverPeer (enough ss) force c none = (some (svcProfs ss 1), .ok (some c')) :=
  discover_profile ss hp hf srv hdb hm c hc hb force

/-- A failed `DiscoverProfile` is not remembered as failed: whatever the peer and the error, the next unforced call reports success without
sending anything, with what had been found before the failure as the profile. -/
theorem discover_profile_after_failure {ex : Exchange σ} {fuel : Nat} {c : Cli σ} {prof prof' : Option (List SvcProf)} {force : Bool} {e : CErr}
    (h : discoverProfile ex fuel force c prof = (prof', .err e)) (ex' : Exchange σ) (fuel' : Nat) (c' : Cli σ) :
    discoverProfile ex' fuel' false c' prof' = (prof', .ok (some c')) := by
  have : prof'.isSome = true := by
    unfold discoverProfile at h
    split at h
    · simp at h
    · simp only [] at h
      split at h
      · simp only [Prod.mk.injEq] at h; rw [← h.1]; rfl
      · simp only [Prod.mk.injEq] at h; rw [← h.1]; rfl
  unfold discoverProfile
  rw [this]
  rfl

/-- Discovering the services again on the same client lists all of them a second time. -/
theorem discover_services_twice (ss : List (Svc α)) (hne : ss ≠ []) (srv : Server (CState α)) (hdb : srv.db = newDB ss 1) (hm : 23 ≤ srv.mtu)
    (hf : 1 + dbSize ss ≤ 65536) (hp : ∀ t ∈ ss, UuidOk t.uuid ∧ ∀ c ∈ t.chars, UuidOk c.uuid)
    (c : Cli (Server (CState α))) (hc : c.peer = srv) (hb : 7 ≤ c.buf.length) (fuel : Nat) (hfuel : ss.length < fuel) :
    ∃ c', c'.peer = srv ∧ discoverServices serverPeer none fuel c 1 (svcInfos ss 1) = .ok (some (c', svcInfos ss 1 ++ svcInfos ss 1)) := by
  obtain ⟨c', hc', h⟩ := discoverServices_loop none srv [] ss hne hdb hm hf hp c.buf.length c.txMTU c.rxMTU hb c
    ⟨hc, rfl, rfl, rfl⟩ (svcInfos ss 1) fuel (by omega)
  refine ⟨c', hc'.peer, ?_⟩
  have h1 : 1 + dbSize ([] : List (Svc α)) = 1 := rfl
  rw [h1] at h
  rw [h, svcScan_all _ (svcInfos_last _ _ hf)]

theorem profSvcs_infos (ex : Exchange σ) (fuel : Nat) (c : Cli σ) (l : List SvcProf) : (profSvcs ex fuel c l).1.map SvcProf.info = l.map SvcProf.info := by
  induction l generalizing c with
  | nil => rfl
  | cons s ss ih =>
    simp only [profSvcs]
    split
    · split
      · simp only [List.map_cons, ih]
      · rfl
    · rfl
    · rfl
    · rfl

theorem svcProfs_infos (ss : List (Svc α)) (h : Nat) : (svcProfs ss h).map SvcProf.info = svcInfos ss h := by
  induction ss generalizing h with
  | nil => rfl
  | cons s ss ih => simp only [svcProfs, svcInfos, List.map_cons, ih]

/-- A forced `DiscoverProfile` asks the peer whatever the client already has: if the peer's connection is gone the call fails. (An unforced one on a client with a profile does not ask.) -/
theorem discover_profile_forced_asks (e : CErr) (he : e ≠ .att 0x0A) (fuel : Nat) (c : Cli σ) (hb : 7 ≤ c.buf.length) (prof : Option (List SvcProf)) :
    (∃ p, discoverProfile (fun _ _ => .err e) (fuel + 1) true c prof = (p, .err e)) ∧
    (∀ p, discoverProfile (fun _ _ => .err e) (fuel + 1) false c (some p) = (some p, .ok (some c))) := by
  refine ⟨?_, fun p => rfl⟩
  have h1 : readByGroupType (fun _ _ => .err e) c 1 0xFFFF (put16 0x2800) = .err e := by
    simp only [readByGroupType, readList, Cli.send]
    rw [if_neg (by decide), if_neg (by simp [put16]; omega)]
    rfl
  have h2 : svcRun (fun _ _ => .err e) (fuel + 1) c 1 ((prof.getD []).map SvcProf.info) = ((prof.getD []).map SvcProf.info, .err e) := by
    rw [svcRun, h1]
    split
    · rename_i h; cases h
    · rename_i h; injection h with h; exact absurd h he
    · rename_i h; injection h with h; rw [h]
    · rename_i h; cases h
  unfold discoverProfile
  rw [if_neg (by simp), h2]
  exact ⟨_, rfl⟩

/-- A forced `DiscoverProfile` on a client that has discovered this library's server lists every service twice, whatever happens after the services have been listed. -/
theorem discover_profile_forced_doubles (ss : List (Svc α)) (hne : ss ≠ []) (srv : Server (CState α)) (hdb : srv.db = newDB ss 1) (hm : 23 ≤ srv.mtu)
    (hf : 1 + dbSize ss ≤ 65536) (hp : ∀ t ∈ ss, UuidOk t.uuid ∧ ∀ c ∈ t.chars, UuidOk c.uuid)
    (c : Cli (Server (CState α))) (hc : c.peer = srv) (hb : 7 ≤ c.buf.length) (fuel : Nat) (hfuel : ss.length < fuel) :
    (discoverProfile serverPeer fuel true c (some (svcProfs ss 1))).1.map (·.map SvcProf.info) = some (svcInfos ss 1 ++ svcInfos ss 1) := by
  obtain ⟨c', -, h⟩ := discover_services_twice ss hne srv hdb hm hf hp c hc hb fuel hfuel
  have hrun := svcRun_eq h
  unfold discoverProfile
  rw [if_neg (by simp)]
  have hl : (svcProfs ss 1).length = (svcInfos ss 1).length := by rw [← svcProfs_infos ss 1]; simp
  have hd : (svcInfos ss 1 ++ svcInfos ss 1).drop (svcProfs ss 1).length = svcInfos ss 1 := by rw [hl]; simp
  have hi : (List.map (fun i : SvcInfo => ({ info := i } : SvcProf)) (svcInfos ss 1)).map SvcProf.info = svcInfos ss 1 := by
    rw [List.map_map]; exact List.map_id _
  simp only [Option.getD_some, svcProfs_infos, hrun, hd, Option.map_some, profSvcs_infos, List.map_append, hi]

/-! ### A concrete table -/

/-- A fresh server and client for the table of `exampleServices`. -/
def discServer : Server (CState Unit) :=
  { db := newDB exampleServices 1, mtu := 23, rxMTU := 515, prep := none, prepData := [], st := CState.init () }
def discClient : Cli (Server (CState Unit)) := Cli.new discServer 23 23

example : Proper exampleServices := by
  intro s hs
  simp only [exampleServices, List.mem_cons, List.not_mem_nil, or_false] at hs
  rcases hs with rfl | rfl
  · refine ⟨.inl rfl, ?_⟩
    intro c hc
    simp only [List.mem_cons, List.not_mem_nil, or_false] at hc
    subst hc
    refine ⟨.inl rfl, by decide, ?_⟩
    intro d hd
    simp only [List.mem_cons, List.not_mem_nil, or_false] at hd
    subst hd
    exact ⟨.inl rfl, by decide⟩
  · refine ⟨.inr rfl, ?_⟩
    intro c hc
    simp only [List.mem_cons, List.not_mem_nil, or_false] at hc
    subst hc
    exact ⟨.inl rfl, by decide, by simp⟩
example : svcInfos exampleServices 1 = [⟨put16 0x180D, 1, 5⟩, ⟨List.replicate 16 7, 6, 0xFFFF⟩] := by decide
example : svcProfs exampleServices 1 =
    [ { info := ⟨put16 0x180D, 1, 5⟩, chars := [{ info := ⟨put16 0x2A37, 0x10, 2, 3, 5⟩, descs := [⟨put16 0x2901, 4⟩, ⟨put16 0x2902, 5⟩],
                                                  cccd := some ⟨put16 0x2902, 5⟩ }] },
      { info := ⟨List.replicate 16 7, 6, 0xFFFF⟩, chars := [{ info := ⟨put16 0x2A00, 2, 7, 8, 0xFFFF⟩ }] } ] := by decide
example : 1 + dbSize exampleServices ≤ 65535 ∧ 23 ≤ discServer.mtu ∧ 7 ≤ discClient.buf.length := by decide

/-- A peer that lists one service and then refuses everything. -/
def flakyPeer : Exchange Nat := fun n _ =>
  if n = 0 then .ok (1, [0x11, 6, 1, 0, 5, 0, 0x0D, 0x18]) else .ok (n + 1, [0x01, 0x10, 6, 0, 0x0E])

example : discoverProfile flakyPeer 5 false (Cli.new 0 23 23) none =
    (some [{ info := ⟨put16 0x180D, 1, 5⟩ }], .err (.att 0x0E)) := by
  have h : svcLoop none 6 [1, 0, 5, 0, 0x0D, 0x18] 1 [] = .ok (.again 6 [⟨put16 0x180D, 1, 5⟩]) :=
    svcLoop_scan none 2 1 [⟨put16 0x180D, 1, 5⟩] [] (by decide)
  have h1 : readByGroupType flakyPeer (Cli.new 0 23 23) 1 0xFFFF (put16 0x2800) =
      .ok (⟨1, 0x10 :: (put16 1 ++ (put16 0xFFFF ++ put16 0x2800)) ++ List.replicate 16 0, 23, 23⟩, 6, [1, 0, 5, 0, 0x0D, 0x18]) := rfl
  have h2 : svcRun flakyPeer 5 (Cli.new 0 23 23) 1 [] = ([⟨put16 0x180D, 1, 5⟩], .err (.att 0x0E)) := by
    rw [svcRun, h1]; simp only [h]; rfl
  simp only [discoverProfile, Option.isSome_none, Bool.false_and, Option.getD_none, List.map_nil, h2]
  rfl

end Ble.Props
