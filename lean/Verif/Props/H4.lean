import Verif.Hci.H4
set_option autoImplicit false

/-!
# H4 reassembly (C28)
-/

namespace Ble.Spec

/-- A packet from the controller (Core Specification, Vol 4, Part E, 5.4). -/
inductive HciPacket where
  | event (code : UInt8) (params : Bytes)
  | acl (h1 h2 : UInt8) (data : Bytes)
deriving Repr, DecidableEq

/-- Its length field can hold its length. -/
def HciPacket.Fits : HciPacket → Prop
  | .event _ p => p.length < 256
  | .acl _ _ d => d.length < 65536

/-- Its bytes on the wire, with the H4 packet indicator. -/
def HciPacket.bytes : HciPacket → Bytes
  | .event code p => 0x04 :: code :: UInt8.ofNat p.length :: p
  | .acl h1 h2 d => 0x02 :: h1 :: h2 :: (put16 d.length ++ d)

/-- A stream of packets, with bytes between them that start no packet. -/
def h4Stream (l : List (Bytes × HciPacket)) : Bytes := l.flatMap fun x => x.1 ++ x.2.bytes

end Ble.Spec

namespace Ble.Props

open Ble.H4 Ble.Spec

/-- What a whole byte stream contains: the complete packets and the unfinished rest. -/
def parse (s : Bytes) : List Bytes × Bytes :=
  match hw : waitStart s with
  | [] => ([], [])
  | x :: xs =>
    match _h : frameLen ⟨x :: xs, x⟩ with
    | none => ([], x :: xs)
    | some tl =>
      let r := parse ((x :: xs).drop tl)
      ((x :: xs).take tl :: r.1, r.2)
termination_by s.length
decreasing_by
  have h1 := frameLen_bounds _h
  have h2 := waitStart_length s
  rw [hw] at h2
  simp only [List.length_drop] at *; omega

theorem parse_none {s : Bytes} (h : waitStart s = []) : parse s = ([], []) := by
  rw [parse]; split
  · rfl
  · rename_i x xs hh; rw [h] at hh; cases hh

theorem parse_short {s : Bytes} {x : UInt8} {xs : Bytes} (h : waitStart s = x :: xs) (hf : frameLen ⟨x :: xs, x⟩ = none) :
    parse s = ([], x :: xs) := by
  rw [parse]; split
  · rename_i hh; rw [h] at hh; cases hh
  · rename_i y ys hh
    rw [h] at hh; cases hh
    split
    · rfl
    · rename_i tl ht; rw [hf] at ht; cases ht

theorem parse_packet {s : Bytes} {x : UInt8} {xs : Bytes} {tl : Nat} (h : waitStart s = x :: xs) (hf : frameLen ⟨x :: xs, x⟩ = some tl) :
    parse s = ((x :: xs).take tl :: (parse ((x :: xs).drop tl)).1, (parse ((x :: xs).drop tl)).2) := by
  rw [parse]; split
  · rename_i hh; rw [h] at hh; cases hh
  · rename_i y ys hh
    rw [h] at hh; cases hh
    split
    · rename_i ht; rw [hf] at ht; cases ht
    · rename_i t ht; rw [hf] at ht; cases ht; rfl

theorem waitStart_cons_start {x : UInt8} {xs : Bytes} (h : isStart x = true) : waitStart (x :: xs) = x :: xs := by
  simp [waitStart, List.dropWhile_cons, h]

theorem waitStart_head {s : Bytes} {x : UInt8} {xs : Bytes} (h : waitStart s = x :: xs) : isStart x = true := by
  induction s with
  | nil => simp [waitStart] at h
  | cons y ys ih =>
    simp only [waitStart, List.dropWhile_cons] at h
    split at h
    · exact ih h
    · rename_i hy; cases h; simpa using hy

/-- A state of the assembler: nothing, or the unfinished beginning of a packet. -/
def Partial (f : Frame) : Prop := f.b = [] ∨ (isStart f.typ = true ∧ f.b.head? = some f.typ ∧ frameLen f = none)

theorem dataLength_append {typ : UInt8} {b c : Bytes} {n : Nat} (h : dataLength typ b = some n) : dataLength typ (b ++ c) = some n := by
  have hidx : ∀ (i : Nat) (x : UInt8), b[i]? = some x → (b ++ c)[i]? = some x := by
    intro i x hx
    rw [List.getElem?_append_left (List.getElem?_eq_some_iff.1 hx).1]; exact hx
  unfold dataLength at h ⊢
  split
  · rename_i ht
    rw [if_pos ht] at h
    split at h
    · rename_i lo hi h1 h2
      rw [hidx _ _ h1, hidx _ _ h2]; exact h
    · cases h
  · rename_i ht
    rw [if_neg ht] at h
    split
    · rename_i ht'
      rw [if_pos ht'] at h
      split at h
      · rename_i m h1
        rw [hidx _ _ h1]; exact h
      · cases h
    · rename_i ht'; rw [if_neg ht'] at h; cases h

theorem frameLen_append {typ : UInt8} {b c : Bytes} {n : Nat} (h : frameLen ⟨b, typ⟩ = some n) : frameLen ⟨b ++ c, typ⟩ = some n := by
  unfold frameLen at h ⊢
  simp only at h ⊢
  split at h
  · rename_i tl htl
    rw [dataLength_append htl]
    simp only
    split at h
    · cases h
    · rename_i hl
      injection h with h; subst h
      rw [if_neg (by simp only [List.length_append]; omega)]
  · cases h

theorem waitStart_append {s t : Bytes} {x : UInt8} {xs : Bytes} (h : waitStart s = x :: xs) : waitStart (s ++ t) = x :: xs ++ t := by
  induction s with
  | nil => simp [waitStart] at h
  | cons y ys ih =>
    simp only [waitStart, List.dropWhile_cons, List.cons_append] at h ⊢
    split at h
    · rename_i hy; rw [if_pos hy]; exact ih h
    · rename_i hy; rw [if_neg hy]; injection h with h1 h2; rw [h1, h2]

theorem waitStart_append_nil {s t : Bytes} (h : waitStart s = []) : waitStart (s ++ t) = waitStart t := by
  induction s with
  | nil => rfl
  | cons y ys ih =>
    simp only [waitStart, List.dropWhile_cons, List.cons_append] at h ⊢
    split at h
    · rename_i hy; rw [if_pos hy]; exact ih h
    · cases h

theorem parse_congr {s t : Bytes} (h : waitStart s = waitStart t) : parse s = parse t := by
  cases hs : waitStart s with
  | nil => rw [parse_none hs, parse_none (h ▸ hs)]
  | cons x xs =>
    have ht : waitStart t = x :: xs := by rw [← h]; exact hs
    cases hf : frameLen ⟨x :: xs, x⟩ with
    | none => rw [parse_short hs hf, parse_short ht hf]
    | some tl => rw [parse_packet hs hf, parse_packet ht hf]

/-- Parsing a stream in two parts. -/
theorem parse_append (s t : Bytes) : parse (s ++ t) = ((parse s).1 ++ (parse ((parse s).2 ++ t)).1, (parse ((parse s).2 ++ t)).2) := by
  have main : ∀ n (s : Bytes), s.length ≤ n →
      parse (s ++ t) = ((parse s).1 ++ (parse ((parse s).2 ++ t)).1, (parse ((parse s).2 ++ t)).2) := by
    intro n
    induction n with
    | zero =>
      intro s hs
      have : s = [] := List.length_eq_zero_iff.1 (by omega)
      subst this
      rw [parse_none (s := []) rfl]; rfl
    | succ n ih =>
      intro s hs
      cases hw : waitStart s with
      | nil =>
        rw [parse_none hw]
        simp only [List.nil_append]
        rw [parse_congr (waitStart_append_nil hw)]
      | cons x xs =>
        cases hf : frameLen ⟨x :: xs, x⟩ with
        | none =>
          rw [parse_short hw hf]
          simp only [List.nil_append]
          have hst := waitStart_head hw
          rw [parse_congr (s := s ++ t) (t := x :: xs ++ t) (by rw [waitStart_append hw]; exact (waitStart_cons_start hst).symm)]
        | some tl =>
          have hb := frameLen_bounds hf
          have hwl := waitStart_length s
          rw [hw] at hwl
          simp only at hb
          have hd : (x :: xs ++ t).drop tl = (x :: xs).drop tl ++ t := List.drop_append_of_le_length hb.2
          have htk : (x :: xs ++ t).take tl = (x :: xs).take tl := List.take_append_of_le_length hb.2
          have hp := parse_packet (s := s ++ t) (x := x) (xs := xs ++ t) (tl := tl) (waitStart_append hw)
            (frameLen_append (b := x :: xs) (c := t) hf)
          rw [show x :: (xs ++ t) = x :: xs ++ t from rfl, hd, htk] at hp
          rw [hp, parse_packet hw hf]
          rw [ih ((x :: xs).drop tl) (by simp only [List.length_drop]; omega)]
          rfl
  exact main _ s (Nat.le_refl _)

theorem parse_rest (s : Bytes) : (parse s).2 = [] ∨ ∃ x xs, (parse s).2 = x :: xs ∧ isStart x = true ∧ frameLen ⟨x :: xs, x⟩ = none := by
  have main : ∀ n (s : Bytes), s.length ≤ n → (parse s).2 = [] ∨ ∃ x xs, (parse s).2 = x :: xs ∧ isStart x = true ∧ frameLen ⟨x :: xs, x⟩ = none := by
    intro n
    induction n with
    | zero =>
      intro s hs
      have : s = [] := List.length_eq_zero_iff.1 (by omega)
      subst this
      exact .inl (by rw [parse_none (s := []) rfl])
    | succ n ih =>
      intro s hs
      cases hw : waitStart s with
      | nil => exact .inl (by rw [parse_none hw])
      | cons x xs =>
        cases hf : frameLen ⟨x :: xs, x⟩ with
        | none => exact .inr ⟨x, xs, by rw [parse_short hw hf], waitStart_head hw, hf⟩
        | some tl =>
          rw [parse_packet hw hf]
          have hb := frameLen_bounds hf
          have hwl := waitStart_length s
          rw [hw] at hwl
          simp only at hb
          exact ih _ (by simp only [List.length_drop]; omega)
  exact main _ s (Nat.le_refl _)

theorem parse_nil : parse [] = ([], []) := parse_none rfl

/-- One call of `Assemble` on a state that holds an unfinished packet. -/
theorem assemble_parse (f : Frame) (hf : Partial f) (chunk : Bytes) :
    (assemble f chunk).2 = (parse (f.b ++ chunk)).1 ∧ (assemble f chunk).1.b = (parse (f.b ++ chunk)).2 ∧ Partial (assemble f chunk).1 := by
  have main : ∀ n (f : Frame), Partial f → ∀ chunk : Bytes, f.b.length + chunk.length ≤ n →
      (assemble f chunk).2 = (parse (f.b ++ chunk)).1 ∧ (assemble f chunk).1.b = (parse (f.b ++ chunk)).2 ∧ Partial (assemble f chunk).1 := by
    intro n
    induction n with
    | zero =>
      intro f hf chunk hn
      have h1 : chunk = [] := List.length_eq_zero_iff.1 (by omega)
      have h2 : f.b = [] := List.length_eq_zero_iff.1 (by omega)
      subst h1
      rw [assemble, if_pos rfl, h2, List.append_nil, parse_nil]
      exact ⟨rfl, rfl, hf⟩
    | succ n ih =>
      intro f hf chunk hn
      by_cases hc : chunk = []
      · subst hc
        rw [assemble, if_pos rfl, List.append_nil]
        rcases hf with h | ⟨h1, h2, h3⟩
        · rw [h, parse_nil]; exact ⟨rfl, rfl, .inl h⟩
        · obtain ⟨b, typ⟩ := f
          cases b with
          | nil => simp at h2
          | cons x xs =>
            have hx : x = typ := by simpa using h2
            subst hx
            rw [parse_short (waitStart_cons_start h1) h3]
            exact ⟨rfl, rfl, .inr ⟨h1, rfl, h3⟩⟩
      · rw [assemble, if_neg hc]
        simp only
        have hparse : parse (f.b ++ chunk) = parse (addBytes f chunk).b ∧
            ((addBytes f chunk).b = [] ∨ ∃ x xs, addBytes f chunk = ⟨x :: xs, x⟩ ∧ isStart x = true ∧ (x :: xs).length ≤ f.b.length + chunk.length) := by
          unfold addBytes
          by_cases hb : f.b = []
          · rw [if_pos hb, hb, List.nil_append]
            cases hw : waitStart chunk with
            | nil => simp only; rw [parse_none hw, hb, parse_nil]; exact ⟨rfl, .inl rfl⟩
            | cons x xs =>
              have hst := waitStart_head hw
              have hl := waitStart_length chunk
              rw [hw] at hl
              refine ⟨parse_congr (by rw [hw]; exact (waitStart_cons_start hst).symm), .inr ⟨x, xs, rfl, hst, ?_⟩⟩
              simp only [List.length_nil]; omega
          · rw [if_neg hb]
            refine ⟨rfl, .inr ?_⟩
            rcases hf with h | ⟨h1, h2, h3⟩
            · exact absurd h hb
            · obtain ⟨b, typ⟩ := f
              cases b with
              | nil => simp at h2
              | cons x xs =>
                have hx : x = typ := by simpa using h2
                subst hx
                exact ⟨x, xs ++ chunk, rfl, h1, by simp only [List.length_cons, List.length_append]; omega⟩
        rw [hparse.1]
        rcases hparse.2 with hb | ⟨x, xs, hg, hst, hlen⟩
        · rw [if_pos hb, hb, parse_nil]; exact ⟨rfl, rfl, .inl hb⟩
        · rw [hg]
          rw [if_neg (by simp)]
          have hws : waitStart (x :: xs) = x :: xs := waitStart_cons_start hst
          split
          · rename_i h
            rw [parse_short hws h]
            exact ⟨rfl, rfl, .inr ⟨hst, rfl, h⟩⟩
          · rename_i tl h
            have hbnd := frameLen_bounds h
            simp only at hbnd
            rw [parse_packet hws h]
            by_cases hgt : (x :: xs).length > tl
            · rw [if_pos hgt]
              obtain ⟨i1, i2, i3⟩ := ih ⟨[], x⟩ (.inl rfl) ((x :: xs).drop tl) (by simp only [List.length_drop, List.length_nil]; omega)
              simp only [List.nil_append] at i1 i2
              exact ⟨by rw [i1], i2, i3⟩
            · rw [if_neg hgt]
              have hd : (x :: xs).drop tl = [] := List.drop_eq_nil_of_le (by omega)
              rw [hd, parse_nil]
              exact ⟨rfl, rfl, .inl rfl⟩
  exact main _ f hf chunk (Nat.le_refl _)

/-- Reads that arrive in time. -/
theorem rxLoop_parse (cs : List (Bool × Bytes)) (hl : ∀ c ∈ cs, c.1 = false) (f : Frame) (hf : Partial f) :
    (rxLoop f cs).2 = (parse (f.b ++ (cs.map Prod.snd).flatten)).1 ∧ (rxLoop f cs).1.b = (parse (f.b ++ (cs.map Prod.snd).flatten)).2 := by
  induction cs generalizing f with
  | nil =>
    have := assemble_parse f hf []
    rw [assemble, if_pos rfl] at this
    simp only [rxLoop, List.map_nil, List.flatten_nil]
    exact ⟨this.1, this.2.1⟩
  | cons c cs ih =>
    obtain ⟨late, c⟩ := c
    have h0 : late = false := hl (late, c) (by simp)
    subst h0
    have ha : assembleAt f false c = assemble f c := by
      unfold assembleAt
      by_cases hc : c = []
      · rw [if_pos hc, assemble, if_pos hc]
      · rw [if_neg hc]; rfl
    obtain ⟨a1, a2, a3⟩ := assemble_parse f hf c
    obtain ⟨i1, i2⟩ := ih (fun x hx => hl x (List.mem_cons_of_mem _ hx)) (assemble f c).1 a3
    simp only [rxLoop, List.map_cons, List.flatten_cons, ha]
    rw [← List.append_assoc, parse_append (f.b ++ c), ← a2, ← a1]
    exact ⟨by rw [i1], i2⟩

/-- **C28.** What is delivered depends on the byte stream only, not on how it was cut into reads (as long as no read comes later than the 500 ms
time-out): for every stream, well formed or not. -/
theorem h4_chunking_irrelevant (cs ds : List (Bool × Bytes)) (h1 : ∀ c ∈ cs, c.1 = false) (h2 : ∀ d ∈ ds, d.1 = false)
    (h : (cs.map Prod.snd).flatten = (ds.map Prod.snd).flatten) : (rxLoop {} cs).2 = (rxLoop {} ds).2 ∧ (rxLoop {} cs).1.b = (rxLoop {} ds).1.b := by
  obtain ⟨a1, a2⟩ := rxLoop_parse cs h1 {} (.inl rfl)
  obtain ⟨b1, b2⟩ := rxLoop_parse ds h2 {} (.inl rfl)
  rw [a1, a2, b1, b2, h]
  exact ⟨rfl, rfl⟩

theorem dropWhile_junk {junk : Bytes} (hj : ∀ x ∈ junk, isStart x = false) {y : UInt8} {ys : Bytes} (hy : isStart y = true) :
    waitStart (junk ++ y :: ys) = y :: ys := by
  induction junk with
  | nil => exact waitStart_cons_start hy
  | cons z zs ih =>
    simp only [waitStart, List.cons_append, List.dropWhile_cons, hj z (by simp), Bool.not_false, if_true]
    exact ih (fun x hx => hj x (by simp [hx]))

theorem packet_frame (p : HciPacket) (hp : p.Fits) (t : Bytes) :
    ∃ x xs, p.bytes ++ t = x :: xs ∧ isStart x = true ∧ frameLen ⟨x :: xs, x⟩ = some p.bytes.length := by
  cases p with
  | event code ps =>
    simp only [HciPacket.Fits] at hp
    refine ⟨0x04, code :: UInt8.ofNat ps.length :: (ps ++ t), rfl, rfl, ?_⟩
    have hn : (UInt8.ofNat ps.length).toNat = ps.length := by simp; omega
    have hd : dataLength 0x04 (0x04 :: code :: UInt8.ofNat ps.length :: (ps ++ t)) = some (ps.length + 3) := by
      simp only [dataLength]
      rw [if_neg (by decide), if_pos trivial]
      simp only [List.getElem?_cons_succ, List.getElem?_cons_zero, hn]
    simp only [frameLen, hd, HciPacket.bytes, List.length_cons, List.length_append]
    rw [if_neg (by omega)]
  | acl h1 h2 d =>
    simp only [HciPacket.Fits] at hp
    refine ⟨0x02, h1 :: h2 :: UInt8.ofNat d.length :: UInt8.ofNat (d.length / 256) :: (d ++ t), rfl, rfl, ?_⟩
    have hd : dataLength 0x02 (0x02 :: h1 :: h2 :: UInt8.ofNat d.length :: UInt8.ofNat (d.length / 256) :: (d ++ t)) = some (d.length + 5) := by
      simp only [dataLength]
      rw [if_pos trivial]
      simp only [List.getElem?_cons_succ, List.getElem?_cons_zero, le16_put16 _ hp]
    simp only [frameLen, hd, HciPacket.bytes, List.length_cons, List.length_append, put16_length]
    rw [if_neg (by omega)]
    congr 1; omega

theorem parse_stream (l : List (Bytes × HciPacket)) (hj : ∀ x ∈ l, ∀ y ∈ x.1, isStart y = false) (hp : ∀ x ∈ l, x.2.Fits) :
    parse (h4Stream l) = (l.map fun x => x.2.bytes, []) := by
  induction l with
  | nil => exact parse_nil
  | cons x xs ih =>
    obtain ⟨y, ys, h1, h2, h3⟩ := packet_frame x.2 (hp x (by simp)) (h4Stream xs)
    have hs : h4Stream (x :: xs) = x.1 ++ (y :: ys) := by
      rw [← h1]; simp [h4Stream]
    rw [hs, parse_packet (dropWhile_junk (hj x (by simp)) h2) h3, ← h1, List.take_left, List.drop_left,
      ih (fun z hz => hj z (by simp [hz])) (fun z hz => hp z (by simp [hz]))]
    rfl

/-- **C28.** For every list of packets, however their bytes (and bytes between them that start no packet) are cut into reads that arrive in time, the
packets delivered are exactly these, in order, and nothing is left over. -/
theorem h4_delivers_packets (l : List (Bytes × HciPacket)) (hj : ∀ x ∈ l, ∀ y ∈ x.1, y ≠ 0x04 ∧ y ≠ 0x02) (hp : ∀ x ∈ l, x.2.Fits)
    (cs : List (Bool × Bytes)) (hl : ∀ c ∈ cs, c.1 = false) (hcut : (cs.map Prod.snd).flatten = h4Stream l) :
    (rxLoop {} cs).2 = l.map (fun x => x.2.bytes) ∧ (rxLoop {} cs).1.b = [] := by
  obtain ⟨a1, a2⟩ := rxLoop_parse cs hl {} (.inl rfl)
  have hj' : ∀ x ∈ l, ∀ y ∈ x.1, isStart y = false := by
    intro x hx y hy
    obtain ⟨h1, h2⟩ := hj x hx y hy
    simp [isStart, h1, h2]
  have e : (({} : Frame).b ++ (cs.map Prod.snd).flatten) = h4Stream l := hcut
  rw [a1, a2, e, parse_stream l hj' hp]
  exact ⟨rfl, rfl⟩

/-- **C28, end of the path.** Packets of at most 4096 bytes all reach the packet handler; a longer one ends reception, and nothing after it arrives. -/
theorem hci_receives_packets (ps : List Bytes) :
    (∀ p ∈ ps, p.length ≤ 4096) → sktRead ps = (ps, true) := by
  intro h
  induction ps with
  | nil => rfl
  | cons p ps ih =>
    have := h p (by simp)
    rw [sktRead, if_neg (by omega), ih (fun q hq => h q (by simp [hq]))]

theorem hci_long_packet_ends_reception (pre rest : List Bytes) (p : Bytes) (hpre : ∀ q ∈ pre, q.length ≤ 4096) (hp : 4096 < p.length) :
    sktRead (pre ++ p :: rest) = (pre, false) := by
  induction pre with
  | nil => rw [List.nil_append, sktRead, if_pos hp]
  | cons q qs ih =>
    have := hpre q (by simp)
    rw [List.cons_append, sktRead, if_neg (by omega), ih (fun r hr => hpre r (by simp [hr]))]

/-- **C28, refuted with a pause.** A packet whose bytes arrive more than 500 ms apart is lost, and its remaining bytes can be taken for packets that
the controller never sent: here one event `0E` with the parameters `04 05 01 07` yields an event `05`. -/
theorem h4_pause_forges_packet : ∃ cs : List (Bool × Bytes),
    (cs.map Prod.snd).flatten = (HciPacket.event 0x0E [0x04, 0x05, 0x01, 0x07]).bytes ∧ (rxLoop {} cs).2 = [[0x04, 0x05, 0x01, 0x07]] := by
  refine ⟨[(false, [0x04, 0x0E, 0x04]), (true, [0x04, 0x05, 0x01, 0x07])], rfl, ?_⟩
  have h1 : assemble ⟨[], 0⟩ [0x04, 0x0E, 0x04] = (⟨[0x04, 0x0E, 0x04], 4⟩, []) := by
    have := assemble_parse ⟨[], 0⟩ (.inl rfl) [0x04, 0x0E, 0x04]
    rw [assemble]; rfl
  have h2 : assemble ⟨[], 4⟩ [0x04, 0x05, 0x01, 0x07] = (⟨[], 4⟩, [[0x04, 0x05, 0x01, 0x07]]) := by rw [assemble]; rfl
  simp only [rxLoop, assembleAt]
  rw [if_neg (by decide), if_neg (by decide)]
  simp only [Bool.false_eq_true, if_false, if_true]
  rw [h1]
  simp only
  rw [h2]
  rfl

/-- An event and an ACL packet with a stray byte between them, cut at awkward places, meet the hypotheses. -/
example : (rxLoop {} [(false, [0x04]), (false, []), (false, [0x0E, 1, 7, 0x55, 0x02, 0x40, 0x20]), (false, [1]), (false, [0, 9])]).2 =
    [[0x04, 0x0E, 1, 7], [0x02, 0x40, 0x20, 1, 0, 9]] := by
  have := h4_delivers_packets [([], .event 0x0E [7]), ([0x55], .acl 0x40 0x20 [9])] (by simp)
    (by simp [HciPacket.Fits]) [(false, [0x04]), (false, []), (false, [0x0E, 1, 7, 0x55, 0x02, 0x40, 0x20]), (false, [1]), (false, [0, 9])]
    (by simp) rfl
  exact this.1

end Ble.Props
