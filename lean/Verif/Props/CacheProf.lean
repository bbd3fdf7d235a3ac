import Verif.Client.CacheProf
import Verif.Props.Cache
import Verif.Props.DiscoveryChars
import Verif.Store.Witness
set_option autoImplicit false

/-! # Discovery with a cache (C164, C165) -/

namespace Ble.Props.CacheProfSpec

open Ble.Store Ble.Client Ble.CacheProf Ble.Att Ble.Spec Ble.Props Ble.Props.CacheAux

/-- The cache file after a history of calls without file errors; `storedProfile` (C44) says what it has for each address. -/
def after (J : Json (List SvcProf)) (os : List (CacheOp (List SvcProf))) : File := cacheCalls J none (os.map fun o => (CacheEnv.fine, o))

theorem after_holds (J : Json (List SvcProf)) (os : List (CacheOp (List SvcProf))) : CHolds J (after J os) (fun a => storedProfile a none os) := calls_cholds J os none _ cholds_none

variable {σ : Type} {J : Json (List SvcProf)}

/-! ## C165: exactly what a call does -/

/-- An unforced call for an address with a cached profile returns that profile and asks the peer nothing, whatever the peer has become, whatever the client knew. The cache is not changed. -/
theorem cached_profile_returned (el es : CacheEnv) (f : File) (mac : Text) (p : List SvcProf) (h : cacheLoad J el f mac = .ok p) (ex : Exchange σ) (fuel : Nat) (c : Cli σ) (prof : Option (List SvcProf)) :
    discoverAndCache J el es (some f) mac ex fuel false c prof = ⟨some p, some f, .profile p⟩ := by
  simp [discoverAndCache, h]

/-- Otherwise it does what `DiscoverProfile` does, and stores what came of it if that was no error. -/
theorem uncached_profile_discovered (el es : CacheEnv) (f : File) (mac : Text) (force : Bool) (h : force = true ∨ ∀ p, cacheLoad J el f mac ≠ .ok p) (ex : Exchange σ) (fuel : Nat) (c : Cli σ) (prof : Option (List SvcProf)) :
    (∀ q c', discoverProfile ex fuel force c prof = (some q, .ok (some c')) →
      (discoverAndCache J el es (some f) mac ex fuel force c prof).prof = some q ∧
      (discoverAndCache J el es (some f) mac ex fuel force c prof).cache = some (cacheStore J es f mac (some q) true).1 ∧
      (discoverAndCache J el es (some f) mac ex fuel force c prof).ret = (match (cacheStore J es f mac (some q) true).2 with | .ok () => .profile q | .err () => .unsaved q | .panic => .panic)) ∧
    (∀ q e, discoverProfile ex fuel force c prof = (q, .err e) → discoverAndCache J el es (some f) mac ex fuel force c prof = ⟨q, some f, .failed e⟩) := by
  have h0 : discoverAndCache J el es (some f) mac ex fuel force c prof = discoverAndStore J es (some f) mac ex fuel force c prof := by
    unfold discoverAndCache
    rcases h with rfl | h
    · rfl
    · cases force with
      | true => rfl
      | false =>
        rw [if_neg (by simp)]
        split
        · rfl
        · rename_i f' hf'
          cases hf'
          split
          · rename_i p hl; exact absurd hl (h p)
          · rfl
  rw [h0]
  refine ⟨fun q c' hq => ?_, fun q e hq => ?_⟩
  · simp only [discoverAndStore, hq, Option.getD_some]
    cases (cacheStore J es f mac (some q) true).2 <;> exact ⟨rfl, rfl, rfl⟩
  · simp only [discoverAndStore, hq]

/-- On a device without a cache file, a call whose discovery succeeds crashes the program, after all the work; only calls whose discovery fails return. -/
theorem no_cache_crashes (el es : CacheEnv) (mac : Text) (ex : Exchange σ) (fuel : Nat) (force : Bool) (c : Cli σ) (prof : Option (List SvcProf)) :
    (discoverAndCache J el es none mac ex fuel force c prof).ret =
      (match (discoverProfile ex fuel force c prof).2 with | .err e => .failed e | .ok none => .never | .ok (some _) => .panic | .panic => .panic) := by
  have h0 : discoverAndCache J el es none mac ex fuel force c prof = discoverAndStore J es none mac ex fuel force c prof := by
    unfold discoverAndCache; cases force <;> rfl
  rw [h0]
  unfold discoverAndStore
  simp only
  cases (discoverProfile ex fuel force c prof).2 with
  | ok o => cases o <;> rfl
  | err e => rfl
  | panic => rfl

/-! ## C164: fresh clients -/

/-- One call on a new connection. -/
structure Visit (α : Type) where
  mac : Text
  force : Bool
  cli : Cli (Server (CState α))

/-- A history of the cache: calls on new connections, and `Clear`. -/
def visits {α : Type} (J : Json (List SvcProf)) (tab : Text → List (Svc α)) : File → List (Option (Visit α)) → File × List Ret
  | f, [] => (f, [])
  | f, none :: vs => visits J tab (cacheClear CacheEnv.fine f).1 vs
  | f, some v :: vs =>
    let o := discoverAndCache J CacheEnv.fine CacheEnv.fine (some f) v.mac serverPeer (enough (tab v.mac)) v.force v.cli none
    let r := visits J tab (o.cache.getD none) vs
    (r.1, o.ret :: r.2)

/-- **C164, the part that holds.** Peers that keep their tables and run this library's server: in every history of calls, each the first on its connection, forced and not, with the cache cleared at any time, no file errors and no
failed exchange, every call returns the whole profile of its peer, and so will every later unforced call. Missing: second calls, failures and changed peers, for which it is false (`failed_discovery_is_cached`,
`forced_second_call_caches_doubles`, `stale_profile_returned`, `torn_store_no_more_caching`). -/
theorem cached_discovery_whole_partial {α : Type} (J : Json (List SvcProf)) (tab : Text → List (Svc α)) (htab : ∀ m, Proper (tab m) ∧ 1 + dbSize (tab m) ≤ 65535) (vs : List (Option (Visit α)))
    (hvs : ∀ v, some v ∈ vs → v.cli.peer.db = newDB (tab v.mac) 1 ∧ 23 ≤ v.cli.peer.mtu ∧ 7 ≤ v.cli.buf.length) :
    (visits J tab none vs).2 = (vs.filterMap id).map (fun v => Ret.profile (svcProfs (tab v.mac) 1)) ∧
    ∀ mac, cacheLoad J CacheEnv.fine (visits J tab none vs).1 mac = .ok (svcProfs (tab mac) 1) ∨ ∃ e, cacheLoad J CacheEnv.fine (visits J tab none vs).1 mac = .err e := by
  suffices H : ∀ (f : File) (g : Text → Option (List SvcProf)), CHolds J f g → (∀ m p, g m = some p → p = svcProfs (tab m) 1) →
      (visits J tab f vs).2 = (vs.filterMap id).map (fun v => Ret.profile (svcProfs (tab v.mac) 1)) ∧
      ∀ mac, cacheLoad J CacheEnv.fine (visits J tab f vs).1 mac = .ok (svcProfs (tab mac) 1) ∨ ∃ e, cacheLoad J CacheEnv.fine (visits J tab f vs).1 mac = .err e from
    H none _ cholds_none (by intro m p h; cases h)
  induction vs with
  | nil =>
    intro f g hf hg
    refine ⟨rfl, fun mac => ?_⟩
    simp only [visits, load_result hf mac]
    cases hm : g mac with
    | none => exact .inr ⟨_, rfl⟩
    | some p => rw [hg mac p hm]; exact .inl rfl
  | cons o vs ih =>
    intro f g hf hg
    have ih := ih (fun v hv => hvs v (List.mem_cons_of_mem _ hv))
    cases o with
    | none => exact ih _ _ (clear_holds f) (by intro m p h; cases h)
    | some v =>
      obtain ⟨h1, h2, h3⟩ := hvs v (by simp)
      have hl := load_result hf v.mac
      simp only [visits, List.filterMap_cons_some (f := id) (b := v) rfl, List.map_cons]
      by_cases hc : v.force = false ∧ (g v.mac).isSome
      · obtain ⟨p, hp⟩ := Option.isSome_iff_exists.1 hc.2
        rw [hp] at hl
        simp only at hl
        rw [hc.1, cached_profile_returned _ _ f v.mac p hl, hg _ _ hp]
        have := ih f g hf hg
        exact ⟨by rw [← this.1]; rfl, this.2⟩
      · have hd : v.force = true ∨ ∀ p, cacheLoad J CacheEnv.fine f v.mac ≠ .ok p := by
          cases hfo : v.force with
          | true => exact .inl rfl
          | false =>
            right
            intro p
            rw [hl]
            cases hgm : g v.mac with
            | none => simp
            | some q => rw [hfo, hgm] at hc; simp at hc
        obtain ⟨c', -, hq⟩ := discover_profile (tab v.mac) (htab v.mac).1 (htab v.mac).2 v.cli.peer h1 h2 v.cli rfl h3 v.force
        obtain ⟨-, r2, r3⟩ := (uncached_profile_discovered (J := J) CacheEnv.fine CacheEnv.fine f v.mac v.force hd serverPeer (enough (tab v.mac)) v.cli none).1 _ _ hq
        obtain ⟨s1, s2⟩ := store_holds hf v.mac (some (svcProfs (tab v.mac) 1)) true
        simp only [Option.isSome_some, or_true, and_self, if_true] at s2
        rw [s2] at r3
        rw [r2, r3]
        simp only [Option.getD_some]
        have := ih _ _ s1 (by
          intro m p hmp
          simp only [or_true, and_true] at hmp
          split at hmp
          · rename_i he
            subst he
            injection hmp with hmp; exact hmp.symm
          · exact hg m p hmp)
        exact ⟨by rw [this.1], this.2⟩

/-- A client that got its profile from a first call does not ask again: whatever the peer does afterwards, all later unforced calls of all clients for this address return it, until the cache is cleared or a forced call succeeds. In
particular a peer whose table has changed is not noticed. -/
theorem stale_profile_returned {τ : Type} (J : Json (List SvcProf)) (es : CacheEnv) (os : List (CacheOp (List SvcProf))) (mac : Text) (ex : Exchange σ) (fuel : Nat) (c c' : Cli σ) (prof : Option (List SvcProf)) (p : List SvcProf)
    (hn : storedProfile mac none os = none) (hd : discoverProfile ex fuel false c prof = (some p, .ok (some c')))
    (ex' : Exchange τ) (fuel' : Nat) (d : Cli τ) (prof' : Option (List SvcProf)) :
    ∃ f', discoverAndCache J CacheEnv.fine CacheEnv.fine (some (after J os)) mac ex fuel false c prof = ⟨some p, some f', .profile p⟩ ∧
      discoverAndCache J CacheEnv.fine es (some f') mac ex' fuel' false d prof' = ⟨some p, some f', .profile p⟩ := by
  have hg := after_holds J os
  generalize after J os = f at hg
  have hn : ∀ p, cacheLoad J CacheEnv.fine f mac ≠ .ok p := by intro p; rw [load_result hg mac, hn]; simp
  obtain ⟨r1, r2, r3⟩ := (uncached_profile_discovered (J := J) CacheEnv.fine CacheEnv.fine f mac false (.inr hn) ex fuel c prof).1 _ _ hd
  obtain ⟨s1, s2⟩ := store_holds hg mac (some p) true
  simp only [Option.isSome_some, or_true, and_self, if_true] at s2
  rw [s2] at r3
  refine ⟨(cacheStore J CacheEnv.fine f mac (some p) true).1, ?_, ?_⟩
  · generalize discoverAndCache J CacheEnv.fine CacheEnv.fine (some f) mac ex fuel false c prof = o at r1 r2 r3
    cases o
    simp only at r1 r2 r3
    rw [r1, r2, r3]
  · apply cached_profile_returned
    rw [load_result s1 mac]
    simp

/-- **C164 is false after a failure.** If discovery fails, the call reports the error; the next unforced call on the same connection reports success, asks nothing, and stores what the failed one had found so far. Every later
client for this address is then given the incomplete profile, whatever the peer, also after a restart of the program. -/
theorem failed_discovery_is_cached {τ : Type} (J : Json (List SvcProf)) (es : CacheEnv) (os : List (CacheOp (List SvcProf))) (mac : Text) (ex ex' : Exchange σ) (fuel fuel' : Nat) (c c' : Cli σ) (prof p : Option (List SvcProf)) (e : CErr)
    (hn : storedProfile mac none os = none) (hd : discoverProfile ex fuel false c prof = (p, .err e)) (ex'' : Exchange τ) (fuel'' : Nat) (d : Cli τ) :
    discoverAndCache J CacheEnv.fine CacheEnv.fine (some (after J os)) mac ex fuel false c prof = ⟨p, some (after J os), .failed e⟩ ∧
    ∃ f', discoverAndCache J CacheEnv.fine CacheEnv.fine (some (after J os)) mac ex' fuel' false c' p = ⟨p, some f', .profile (p.getD [])⟩ ∧
      discoverAndCache J CacheEnv.fine es (some f') mac ex'' fuel'' false d none = ⟨some (p.getD []), some f', .profile (p.getD [])⟩ := by
  have hn' : ∀ p, cacheLoad J CacheEnv.fine (after J os) mac ≠ .ok p := by intro p; rw [load_result (after_holds J os) mac, hn]; simp
  have h2 := discover_profile_after_failure hd ex' fuel' c'
  have hs : p.isSome = true := by
    cases p with
    | some q => rfl
    | none =>
      exfalso
      unfold discoverProfile at hd
      split at hd
      · simp at hd
      · simp only [] at hd
        split at hd <;> simp at hd
  obtain ⟨q, rfl⟩ := Option.isSome_iff_exists.1 hs
  refine ⟨(uncached_profile_discovered (J := J) CacheEnv.fine CacheEnv.fine (after J os) mac false (.inr hn') ex fuel c prof).2 _ _ hd, ?_⟩
  exact stale_profile_returned J es os mac ex' fuel' c' c' (some q) q hn h2 ex'' fuel'' d none

namespace Aux

variable {α : Type}

theorem mem_svcInfos (ss : List (Svc α)) (h : Nat) (i : SvcInfo) (hi : i ∈ svcInfos ss h) :
    ∃ pre s post, ss = pre ++ s :: post ∧ i = ⟨s.uuid, h + dbSize pre, if post.isEmpty then 0xFFFF else h + dbSize pre + svcSize s - 1⟩ := by
  induction ss generalizing h with
  | nil => cases hi
  | cons s ss ih =>
    simp only [svcInfos, List.mem_cons] at hi
    rcases hi with rfl | hi
    · exact ⟨[], s, ss, rfl, by simp [dbSize]⟩
    · obtain ⟨pre, t, post, rfl, rfl⟩ := ih _ hi
      refine ⟨s :: pre, t, post, rfl, ?_⟩
      have : dbSize (s :: pre) = svcSize s + dbSize pre := by simp [dbSize]
      rw [this, Nat.add_assoc]

theorem mem_charInfos (E : Nat) (cs : List (Char α)) (h : Nat) (i : CharInfo) (hi : i ∈ charInfos E cs h) :
    ∃ pre c post, cs = pre ++ c :: post ∧ i = ⟨c.uuid, c.prop, h + charsSize pre, h + charsSize pre + 1, if post.isEmpty then E else h + charsSize pre + charSize c - 1⟩ := by
  induction cs generalizing h with
  | nil => cases hi
  | cons c cs ih =>
    simp only [charInfos, List.mem_cons] at hi
    rcases hi with rfl | hi
    · exact ⟨[], c, cs, rfl, by simp [charsSize]⟩
    · obtain ⟨pre, t, post, rfl, rfl⟩ := ih _ hi
      refine ⟨c :: pre, t, post, rfl, ?_⟩
      rw [charsSize_cons, Nat.add_assoc]

theorem charProfs_infos (E : Nat) (cs : List (Char α)) (h : Nat) : (charProfs E cs h).map CharProf.info = charInfos E cs h := by
  induction cs generalizing h with
  | nil => rfl
  | cons c cs ih => simp only [charProfs, charInfos, List.map_cons, ih]

theorem profDescs_again (pre post : List (Svc α)) (s : Svc α) (srv : Server (CState α)) (hdb : srv.db = newDB (pre ++ s :: post) 1) (hm : 23 ≤ srv.mtu)
    (hf : 1 + dbSize (pre ++ s :: post) ≤ 65535) (hok : CharsOk s.chars) (n tx rx : Nat) (hn : 7 ≤ n) (fuel : Nat) (hfuel : ∀ x ∈ s.chars, (allDescs x).length < fuel)
    (l : List CharProf) (hl : ∀ x ∈ l, x.info ∈ charInfos (svcEnd pre post s) s.chars (1 + dbSize pre + 1)) (c : Cli (Server (CState α))) (hc : Like c srv n tx rx) :
    ∃ c', Like c' srv n tx rx ∧ (profDescs serverPeer fuel c l).2 = .ok (some c') := by
  induction l generalizing c with
  | nil => exact ⟨c, hc, rfl⟩
  | cons x l ih =>
    obtain ⟨cpre, ch, cpost, h1, h2⟩ := mem_charInfos _ _ _ _ (hl x (by simp))
    obtain ⟨u, cs⟩ := s
    simp only at h1
    subst h1
    obtain ⟨c1, hc1, hr1⟩ := discover_descriptors none pre post u cpre cpost ch srv hdb hm hf (fun d hd => ((hok ch (by simp)).2.2 d hd).1) c hc.peer (by rw [hc.buf]; exact hn) fuel (hfuel ch (by simp))
      (1 + dbSize pre + 1 + charsSize cpre) rfl _ rfl
    rw [← h2] at hr1
    obtain ⟨c2, hc2, hr2⟩ := ih (fun y hy => hl y (by simp [hy])) c1 (by rw [hc.buf, hc.tx, hc.rx] at hc1; exact hc1)
    exact ⟨c2, hc2, by simp only [profDescs, hr1, hr2]⟩

/-- A part of a profile that comes from this table. -/
def Of (ss : List (Svc α)) (x : SvcProf) : Prop :=
  ∃ pre s post, ss = pre ++ s :: post ∧ x.info = ⟨s.uuid, 1 + dbSize pre, svcEnd pre post s⟩ ∧ ∀ y ∈ x.chars, y.info ∈ charInfos (svcEnd pre post s) s.chars (1 + dbSize pre + 1)

theorem profSvcs_again (ss : List (Svc α)) (hp : Proper ss) (srv : Server (CState α)) (hdb : srv.db = newDB ss 1) (hm : 23 ≤ srv.mtu) (hf : 1 + dbSize ss ≤ 65535) (n tx rx : Nat) (hn : 7 ≤ n) (fuel : Nat)
    (hfuel : ∀ s ∈ ss, s.chars.length < fuel ∧ ∀ x ∈ s.chars, (allDescs x).length < fuel) (l : List SvcProf) (hl : ∀ x ∈ l, Of ss x) (c : Cli (Server (CState α))) (hc : Like c srv n tx rx) :
    ∃ c', Like c' srv n tx rx ∧ (profSvcs serverPeer fuel c l).2 = .ok (some c') := by
  induction l generalizing c with
  | nil => exact ⟨c, hc, rfl⟩
  | cons x l ih =>
    obtain ⟨pre, s, post, h1, h2, h3⟩ := hl x (by simp)
    have hs : s ∈ ss := by rw [h1]; simp
    obtain ⟨c1, hc1, hr1⟩ := discover_characteristics none pre post s srv (by rw [hdb, h1]) hm (by rw [← h1]; exact hf) (hp s hs).2 c hc.peer (by rw [hc.buf]; exact hn) fuel (hfuel s hs).1
    rw [hc.buf, hc.tx, hc.rx] at hc1
    have hk : (fun x : CharInfo => kept none x.uuid) = fun _ => true := by funext x; rfl
    rw [hk, List.filter_eq_self.2 (fun _ _ => rfl), ← h2] at hr1
    obtain ⟨c2, hc2, hr2⟩ := profDescs_again pre post s srv (by rw [hdb, h1]) hm (by rw [← h1]; exact hf) (hp s hs).2 n tx rx hn fuel (hfuel s hs).2
      (x.chars ++ (charInfos (svcEnd pre post s) s.chars (1 + dbSize pre + 1)).map fun i => { info := i }) (by
        intro y hy
        rcases List.mem_append.1 hy with hy | hy
        · exact h3 y hy
        · obtain ⟨i, hi, rfl⟩ := List.mem_map.1 hy
          exact hi) c1 hc1
    obtain ⟨c3, hc3, hr3⟩ := ih (fun y hy => hl y (by simp [hy])) c2 hc2
    exact ⟨c3, hc3, by simp only [profSvcs, hr1, hr2, hr3]⟩

theorem svcProfs_of (ss : List (Svc α)) (x : SvcProf) (hx : x ∈ svcProfs ss 1) : Of ss x := by
  suffices H : ∀ (pre post : List (Svc α)) (x : SvcProf), x ∈ svcProfs post (1 + dbSize pre) → Of (pre ++ post) x from H [] ss x hx
  intro pre post
  induction post generalizing pre with
  | nil => intro x hx; cases hx
  | cons s post ih =>
    intro x hx
    simp only [svcProfs, List.mem_cons] at hx
    rcases hx with rfl | hx
    · exact ⟨pre, s, post, rfl, rfl, fun y hy => by rw [← charProfs_infos]; exact List.mem_map_of_mem hy⟩
    · have e : pre ++ s :: post = (pre ++ [s]) ++ post := by simp
      have hs : 1 + dbSize (pre ++ [s]) = 1 + dbSize pre + svcSize s := by simp [dbSize]; omega
      rw [e]
      exact ih (pre ++ [s]) x (by rw [hs]; exact hx)

end Aux

open Aux

/-- **C164 is false of a second, forced call.** It succeeds with every service listed twice, and that is what it stores for everybody. -/
theorem forced_second_call_caches_doubles {α τ : Type} (J : Json (List SvcProf)) (os : List (CacheOp (List SvcProf))) (mac : Text) (ss : List (Svc α)) (hne : ss ≠ []) (hp : Proper ss) (hsz : 1 + dbSize ss ≤ 65535)
    (srv : Server (CState α)) (hdb : srv.db = newDB ss 1) (hm : 23 ≤ srv.mtu)
    (c : Cli (Server (CState α))) (hc : c.peer = srv) (hb : 7 ≤ c.buf.length) (es : CacheEnv) (ex : Exchange τ) (fuel : Nat) (d : Cli τ) :
    ∃ q f', q.map SvcProf.info = svcInfos ss 1 ++ svcInfos ss 1 ∧
      discoverAndCache J CacheEnv.fine CacheEnv.fine (some (after J os)) mac serverPeer (enough ss) true c (some (svcProfs ss 1)) = ⟨some q, some f', .profile q⟩ ∧
      discoverAndCache J CacheEnv.fine es (some f') mac ex fuel false d none = ⟨some q, some f', .profile q⟩ := by
  have hg := after_holds J os
  have hen := enough_ok ss
  have hu : ∀ t ∈ ss, UuidOk t.uuid ∧ ∀ c ∈ t.chars, UuidOk c.uuid := fun t ht => ⟨(hp t ht).1, fun c hc => ((hp t ht).2 c hc).1⟩
  have hdbl := discover_profile_forced_doubles ss hne srv hdb hm (by omega) hu c hc hb (enough ss) hen.1
  obtain ⟨c1, hc1, hr1⟩ : ∃ c', Like c' srv c.buf.length c.txMTU c.rxMTU ∧ discoverServices serverPeer none (enough ss) c 1 (svcInfos ss 1) = .ok (some (c', svcInfos ss 1 ++ svcInfos ss 1)) := by
    obtain ⟨c', hc', h⟩ := discoverServices_loop none srv [] ss hne hdb hm (by simp only [List.nil_append]; omega) hu c.buf.length c.txMTU c.rxMTU hb c ⟨hc, rfl, rfl, rfl⟩ (svcInfos ss 1) (enough ss) (by have := hen.1; omega)
    refine ⟨c', hc', ?_⟩
    have h1 : 1 + dbSize ([] : List (Svc α)) = 1 := rfl
    rw [h1] at h
    rw [h, svcScan_all _ (svcInfos_last _ _ (by omega))]
  have hrun := svcRun_eq hr1
  obtain ⟨c2, -, hr2⟩ := profSvcs_again ss hp srv hdb hm hsz c.buf.length c.txMTU c.rxMTU hb (enough ss) hen.2 (svcProfs ss 1 ++ (svcInfos ss 1).map fun i => { info := i }) (by
    intro x hx
    rcases List.mem_append.1 hx with hx | hx
    · exact svcProfs_of ss x hx
    · obtain ⟨i, hi, rfl⟩ := List.mem_map.1 hx
      obtain ⟨pre, s, post, h1, h2⟩ := mem_svcInfos ss 1 i hi
      exact ⟨pre, s, post, h1, h2, by intro y hy; cases hy⟩) c1 hc1
  have hdp : ∃ q, discoverProfile serverPeer (enough ss) true c (some (svcProfs ss 1)) = (some q, .ok (some c2)) := by
    have hl : (svcProfs ss 1).length = (svcInfos ss 1).length := by rw [← svcProfs_infos ss 1]; simp
    have hd : (svcInfos ss 1 ++ svcInfos ss 1).drop (svcProfs ss 1).length = svcInfos ss 1 := by rw [hl]; simp
    unfold discoverProfile
    rw [if_neg (by simp)]
    simp only [Option.getD_some, svcProfs_infos, hrun, hd, hr2]
    exact ⟨_, rfl⟩
  obtain ⟨q, hq⟩ := hdp
  rw [hq] at hdbl
  obtain ⟨r1, r2, r3⟩ := (uncached_profile_discovered (J := J) CacheEnv.fine CacheEnv.fine (after J os) mac true (.inl rfl) serverPeer (enough ss) c (some (svcProfs ss 1))).1 _ _ hq
  obtain ⟨s1, s2⟩ := store_holds hg mac (some q) true
  simp only [Option.isSome_some, or_true, and_self, if_true] at s2
  rw [s2] at r3
  refine ⟨q, (cacheStore J CacheEnv.fine (after J os) mac (some q) true).1, Option.some.inj hdbl, ?_, ?_⟩
  · generalize discoverAndCache J CacheEnv.fine CacheEnv.fine (some (after J os)) mac serverPeer (enough ss) true c (some (svcProfs ss 1)) = o at r1 r2 r3
    cases o
    simp only at r1 r2 r3
    rw [r1, r2, r3]
  · apply cached_profile_returned
    rw [load_result s1 mac]
    simp

/-- **C164 is false after a torn write.** If writing the file is interrupted (and the file is not complete by chance), the call returns the profile and an error, and from then on every call for every address asks its peer again and returns an error, until the cache is cleared. -/
theorem torn_store_no_more_caching {τ : Type} (J : Json (List SvcProf)) (os : List (CacheOp (List SvcProf))) (mac other : Text) (ex : Exchange σ) (fuel : Nat) (c c' : Cli σ) (prof : Option (List SvcProf)) (p : List SvcProf)
    (hn : storedProfile mac none os = none) (hd : discoverProfile ex fuel false c prof = (some p, .ok (some c')))
    (n : Nat) (hcut : n < ((cacheStore J CacheEnv.fine (after J os) mac (some p) true).1.getD []).length)
    (ex' : Exchange τ) (fuel' : Nat) (force : Bool) (d d' : Cli τ) (prof' : Option (List SvcProf)) (q : List SvcProf) (hd' : discoverProfile ex' fuel' force d prof' = (some q, .ok (some d'))) :
    ∃ f', discoverAndCache J CacheEnv.fine ⟨true, .torn n, true⟩ (some (after J os)) mac ex fuel false c prof = ⟨some p, some f', .unsaved p⟩ ∧
      discoverAndCache J CacheEnv.fine CacheEnv.fine (some f') other ex' fuel' force d prof' = ⟨some q, some f', .unsaved q⟩ := by
  have hg := after_holds J os
  have hn' : ∀ p, cacheLoad J CacheEnv.fine (after J os) mac ≠ .ok p := by intro p; rw [load_result hg mac, hn]; simp
  obtain ⟨m, hm1, hm2⟩ : ∃ m, cacheStore J ⟨true, .torn n, true⟩ (after J os) mac (some p) true = (some ((J.enc m).take n), .err ()) ∧ n < (J.enc m).length := by
    obtain ⟨m0, h1, -⟩ := hg
    have h1' : loadExisting J ⟨true, .torn n, true⟩ (after J os) = some (some m0) := by
      rw [← h1]; rfl
    refine ⟨put m0 mac p, ?_, ?_⟩
    · simp [cacheStore, h1', writeFile]
    · have hst : cacheStore J CacheEnv.fine (after J os) mac (some p) true = (some (J.enc (put m0 mac p)), .ok ()) := by
        simp only [cacheStore, h1]
        simp [CacheEnv.fine, writeFile]
      rw [hst] at hcut
      exact hcut
  obtain ⟨r1, r2, r3⟩ := (uncached_profile_discovered (J := J) CacheEnv.fine ⟨true, .torn n, true⟩ (after J os) mac false (.inr hn') ex fuel c prof).1 _ _ hd
  rw [hm1] at r2 r3
  have hbad : loadExisting J CacheEnv.fine (some ((J.enc m).take n)) = none := J.cut m n hm2
  have hl : ∀ p, cacheLoad J CacheEnv.fine (some ((J.enc m).take n)) other ≠ .ok p := by intro p; simp [cacheLoad, hbad]
  obtain ⟨t1, t2, t3⟩ := (uncached_profile_discovered (J := J) CacheEnv.fine CacheEnv.fine (some ((J.enc m).take n)) other force (.inr hl) ex' fuel' d prof').1 _ _ hd'
  have hs : cacheStore J CacheEnv.fine (some ((J.enc m).take n)) other (some q) true = (some ((J.enc m).take n), .err ()) := by simp [cacheStore, hbad]
  rw [hs] at t2 t3
  refine ⟨some ((J.enc m).take n), ?_, ?_⟩
  rotate_left
  · generalize discoverAndCache J CacheEnv.fine CacheEnv.fine _ other ex' fuel' force d prof' = o at t1 t2 t3
    cases o
    simp only at t1 t2 t3
    rw [t1, t2, t3]
  · generalize discoverAndCache J CacheEnv.fine _ (some (after J os)) mac ex fuel false c prof = o at r1 r2 r3
    cases o
    simp only at r1 r2 r3
    rw [r1, r2, r3]

/-! ## The hypotheses can be met -/

/-- A JSON library with the assumed laws can exist for profiles. -/
theorem json_profiles : Nonempty (Json (List SvcProf)) := by
  have h8 : Countable UInt8 := Function.Injective.countable (f := UInt8.toNat) (fun a b h => UInt8.toNat_inj.1 h)
  have hd : Countable DescInfo := Function.Injective.countable (f := fun d : DescInfo => (d.uuid, d.handle)) (by rintro ⟨⟩ ⟨⟩ h; simp_all)
  have hc : Countable CharInfo := Function.Injective.countable (f := fun d : CharInfo => (d.uuid, d.prop, d.handle, d.valueHandle, d.endHandle)) (by rintro ⟨⟩ ⟨⟩ h; simp_all)
  have hs : Countable SvcInfo := Function.Injective.countable (f := fun d : SvcInfo => (d.uuid, d.handle, d.endHandle)) (by rintro ⟨⟩ ⟨⟩ h; simp_all)
  have hp : Countable CharProf := Function.Injective.countable (f := fun d : CharProf => (d.info, d.descs, d.cccd)) (by rintro ⟨⟩ ⟨⟩ h; simp_all)
  have hq : Countable SvcProf := Function.Injective.countable (f := fun d : SvcProf => (d.info, d.chars)) (by rintro ⟨⟩ ⟨⟩ h; simp_all)
  exact json_exists _

theorem example_proper : Proper exampleServices := by
  intro s hs
  simp only [exampleServices, List.mem_cons, List.not_mem_nil, or_false] at hs
  rcases hs with rfl | rfl
  · refine ⟨.inl rfl, ?_⟩
    intro c hc
    simp only [List.mem_cons, List.not_mem_nil, or_false] at hc
    subst hc
    refine ⟨.inl rfl, by decide, ?_⟩
    intro d hd
    simp only [List.mem_cons, List.not_mem_nil, or_false] at hd
    subst hd
    exact ⟨.inl rfl, by decide⟩
  · refine ⟨.inr rfl, ?_⟩
    intro c hc
    simp only [List.mem_cons, List.not_mem_nil, or_false] at hc
    subst hc
    exact ⟨.inl rfl, by decide, by simp⟩

/-- Three connections to one peripheral, the cache cleared before the last. -/
theorem example_visits (J : Json (List SvcProf)) :
    (visits J (fun _ => exampleServices) none [some ⟨['a'], false, discClient⟩, some ⟨['a'], false, discClient⟩, none, some ⟨['a'], true, discClient⟩]).2 =
      List.replicate 3 (.profile (svcProfs exampleServices 1)) := by
  rw [(cached_discovery_whole_partial J (fun _ => exampleServices) (fun _ => ⟨example_proper, by decide⟩) _ (by
    intro v hv
    simp only [List.mem_cons, List.not_mem_nil, or_false, Option.some.injEq, reduceCtorEq, false_or] at hv
    rcases hv with rfl | rfl | rfl <;> exact ⟨rfl, by decide, by decide⟩)).1]
  rfl

/-- A peer that lists one service and then refuses everything: the next call caches the service without its characteristics. -/
theorem example_failed_discovery (J : Json (List SvcProf)) (mac : Text) :
    ∃ f', discoverAndCache J CacheEnv.fine CacheEnv.fine (some none) mac flakyPeer 5 false (Cli.new 0 23 23) none = ⟨some [{ info := ⟨put16 0x180D, 1, 5⟩ }], some none, .failed (.att 0x0E)⟩ ∧
      discoverAndCache J CacheEnv.fine CacheEnv.fine (some none) mac flakyPeer 5 false (Cli.new 0 23 23) (some [{ info := ⟨put16 0x180D, 1, 5⟩ }]) =
        ⟨some [{ info := ⟨put16 0x180D, 1, 5⟩ }], some f', .profile [{ info := ⟨put16 0x180D, 1, 5⟩ }]⟩ ∧
      discoverAndCache J CacheEnv.fine CacheEnv.fine (some f') mac serverPeer (enough exampleServices) false discClient none =
        ⟨some [{ info := ⟨put16 0x180D, 1, 5⟩ }], some f', .profile [{ info := ⟨put16 0x180D, 1, 5⟩ }]⟩ := by
  have h : svcLoop none 6 [1, 0, 5, 0, 0x0D, 0x18] 1 [] = .ok (.again 6 [⟨put16 0x180D, 1, 5⟩]) :=
    svcLoop_scan none 2 1 [⟨put16 0x180D, 1, 5⟩] [] (by decide)
  have h1 : readByGroupType flakyPeer (Cli.new 0 23 23) 1 0xFFFF (put16 0x2800) =
      .ok (⟨1, 0x10 :: (put16 1 ++ (put16 0xFFFF ++ put16 0x2800)) ++ List.replicate 16 0, 23, 23⟩, 6, [1, 0, 5, 0, 0x0D, 0x18]) := rfl
  have h2 : svcRun flakyPeer 5 (Cli.new 0 23 23) 1 [] = ([⟨put16 0x180D, 1, 5⟩], .err (.att 0x0E)) := by
    rw [svcRun, h1]; simp only [h]; rfl
  have h3 : discoverProfile flakyPeer 5 false (Cli.new 0 23 23) none = (some [{ info := ⟨put16 0x180D, 1, 5⟩ }], .err (.att 0x0E)) := by
    simp only [discoverProfile, Option.isSome_none, Bool.false_and, Option.getD_none, List.map_nil, h2]
    rfl
  obtain ⟨a, f', b, d⟩ := failed_discovery_is_cached (τ := Server (CState Unit)) J CacheEnv.fine [] mac flakyPeer flakyPeer 5 5 (Cli.new 0 23 23) (Cli.new 0 23 23) none _ _ rfl h3 serverPeer (enough exampleServices) discClient
  exact ⟨f', a, b, d⟩

end Ble.Props.CacheProfSpec
