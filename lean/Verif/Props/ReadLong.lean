import Verif.Props.ClientCalls
set_option autoImplicit false

/-!
# ReadLongCharacteristic against this library's server (C25)
-/

namespace Ble.Spec

open Ble.Att

/-- A read handler that serves the value `v`: whatever its state, it writes the part of `v` that starts at the requested offset, as much as fits,
reports success and leaves its state alone. -/
def Serves {σ : Type} (f : ReadH σ) (v : Bytes) : Prop := ∀ st off cap, f st off cap = .ok (st, [(v.drop off).take cap], 0)

end Ble.Spec

namespace Ble.Props

open Ble.Att Ble.Spec Ble.Client

variable {σ : Type}

theorem serveRead_serves {f : ReadH σ} {v : Bytes} (hf : Serves f v) (s : Server σ) (off cap : Nat) :
    serveRead f s off cap = .ok (s, 0, (v.drop off).take cap) := by
  simp [serveRead, hf s.st off cap, writeAll, List.length_take, List.length_drop]
  intro h
  exact absurd h (by have := Nat.min_le_left cap (v.length - off); omega)

theorem handleRequest_read {s : Server σ} {h : Nat} {a : Attr σ} {f : ReadH σ} {v : Bytes} (hh : h < 65536) (ha : s.db.at h = some a)
    (hv : a.v = none) (hr : a.rh = some f) (hf : Serves f v) :
    handleRequest s (0x0A :: put16 h) = .ok (s, some (0x0B :: v.take (s.mtu - 1))) := by
  show handleRead s (0x0A :: put16 h) = _
  unfold handleRead
  have e1 : le16At (ε := Empty) (0x0A :: put16 h) 1 = .ok h := by have := le16At_put16 (ε := Empty) 0x0A h hh []; rwa [List.append_nil] at this
  rw [e1]
  simp only [index_cons_zero, Go.bind_ok]
  rw [if_neg (by simp), ha]
  simp only [hv, handleATT, index_cons_zero, Go.bind_ok, hr, serveRead_serves hf]
  simp

theorem handleRequest_readBlob {s : Server σ} {h off : Nat} {a : Attr σ} {f : ReadH σ} {v : Bytes} (hh : h < 65536) (ho : off < 65536)
    (ha : s.db.at h = some a) (hv : a.v = none) (hr : a.rh = some f) (hf : Serves f v) :
    handleRequest s (0x0C :: (put16 h ++ put16 off)) = .ok (s, some (0x0D :: (v.drop off).take (s.mtu - 1))) := by
  show handleReadBlob s (0x0C :: (put16 h ++ put16 off)) = _
  unfold handleReadBlob
  rw [le16At_put16 0x0C h hh]
  have e3 : le16At (ε := Empty) (0x0C :: (put16 h ++ put16 off)) 3 = .ok off := by
    have := le16At_put16_3 (ε := Empty) 0x0C h off ho []; rwa [List.append_nil] at this
  simp only [index_cons_zero, Go.bind_ok]
  rw [if_neg (by simp), ha]
  simp only [hv, handleATT, index_cons_zero, Go.bind_ok, hr, e3, serveRead_serves hf]
  simp

theorem readBlob_ok {s : Server σ} {c : Cli (Server σ)} {n tx rx h off : Nat} (hc : Like c s n tx rx) (hn : 5 ≤ n) {d : Bytes}
    (hq : handleRequest s (0x0C :: (put16 h ++ put16 off)) = .ok (s, some (0x0D :: d))) :
    ∃ c', Like c' s n tx rx ∧ readBlob serverPeer c h off = .ok (c', d) := by
  obtain ⟨c', hc', hs⟩ := send_server hc (req := 0x0C :: (put16 h ++ put16 off)) (op := 0x0D) (by simp; omega) hq rfl (.inr rfl)
  refine ⟨c', hc', ?_⟩
  unfold readBlob
  rw [hs]
  simp only [Go.bind_ok, checkError_other (show (0x0D : UInt8) ≠ 0x01 by decide), List.drop_succ_cons, List.drop_zero, Go.pure_def]

theorem read_ok {s : Server σ} {c : Cli (Server σ)} {n tx rx h : Nat} (hc : Like c s n tx rx) (hn : 5 ≤ n) {d : Bytes}
    (hq : handleRequest s (0x0A :: put16 h) = .ok (s, some (0x0B :: d))) :
    ∃ c', Like c' s n tx rx ∧ Client.read serverPeer c h = .ok (c', d) := by
  obtain ⟨c', hc', hs⟩ := send_server hc (req := 0x0A :: put16 h) (op := 0x0B) (by simp; omega) hq rfl (.inr rfl)
  refine ⟨c', hc', ?_⟩
  unfold Client.read
  rw [hs]
  simp only [Go.bind_ok, checkError_other (show (0x0B : UInt8) ≠ 0x01 by decide), List.drop_succ_cons, List.drop_zero, Go.pure_def]

/-- The loop, from a state in which the first `k` bytes are there and the last piece was the `M-1` bytes before. -/
theorem readLongLoop_serves {s : Server σ} {n tx rx h : Nat} {a : Attr σ} {f : ReadH σ} {v : Bytes} (hh : h < 65536) (ha : s.db.at h = some a)
    (hv : a.v = none) (hr : a.rh = some f) (hf : Serves f v) (hn : 5 ≤ n) (h2 : 2 ≤ tx) (hm : tx ≤ s.mtu) (hvl : v.length < 65536)
    (g : Nat) : ∀ (c : Cli (Server σ)), Like c s n tx rx → ∀ last buf, buf = v.take buf.length → v.length - buf.length < g →
      (last.length < tx - 1 → buf = v) → ∃ c', readLongLoop serverPeer h (g + 1) c last buf = .ok (some (c', v)) ∧ Like c' s n tx rx := by
  induction g with
  | zero => intro c _ last buf _ hg; omega
  | succ g ih =>
    intro c hc last buf hbuf hg hl
    rw [readLongLoop, hc.tx]
    have hbl : buf.length ≤ v.length := by rw [hbuf, List.length_take]; omega
    by_cases hlast : last.length < tx - 1
    · rw [if_neg (by omega), hl hlast]
      exact ⟨c, rfl, hc⟩
    · rw [if_pos (by omega), Nat.mod_eq_of_lt (by omega)]
      obtain ⟨c', hc', hs⟩ := readBlob_ok (off := buf.length) hc hn (handleRequest_readBlob hh (by omega) ha hv hr hf)
      rw [hs]
      simp only []
      have hnew : buf ++ (v.drop buf.length).take (s.mtu - 1) = v.take (buf.length + (s.mtu - 1)) := by
        conv => lhs; arg 1; rw [hbuf]
        exact List.take_add.symm
      by_cases hz : v.length - buf.length = 0
      · -- the piece is empty: one more turn ends the loop
        have he : (v.drop buf.length).take (s.mtu - 1) = [] := by
          rw [List.take_eq_nil_iff]; right; exact List.drop_eq_nil_of_le (by omega)
        have hbv : buf = v := by rw [hbuf]; exact List.take_of_length_le (by omega)
        rw [he, List.append_nil, readLongLoop, hc'.tx, if_neg (by simp; omega), hbv]
        exact ⟨c', rfl, hc'⟩
      · apply ih c' hc'
        · rw [hnew, List.length_take]
          rcases Nat.le_total (buf.length + (s.mtu - 1)) v.length with h1 | h1
          · rw [Nat.min_eq_left h1]
          · rw [Nat.min_eq_right h1, List.take_of_length_le h1, List.take_length]
        · rw [hnew, List.length_take]; omega
        · intro hlt
          rw [List.length_take, List.length_drop] at hlt
          rw [hnew]
          exact List.take_of_length_le (by omega)

/-- **C25 (partial).** Reading a long characteristic returns the whole value, for every length below 65536 and every MTU, when the value is served
by a handler and the client's transmit MTU is not larger than the MTU the server uses. (Without that last condition it is false: see
`readLong_truncates`. For static values see `readLong_static`.) -/
theorem readLong_returns_value_partial (s : Server σ) (c : Cli (Server σ)) (h : Nat) (a : Attr σ) (f : ReadH σ) (v : Bytes) (hh : h < 65536)
    (ha : s.db.at h = some a) (hv : a.v = none) (hr : a.rh = some f) (hf : Serves f v) (hvl : v.length < 65536)
    (hp : c.peer = s) (hb : 5 ≤ c.buf.length) (h2 : 2 ≤ c.txMTU) (hm : c.txMTU ≤ s.mtu) :
    ∃ c', readLong serverPeer (v.length + 2) c h = .ok (some (c', v)) := by
  have hc : Like c s c.buf.length c.txMTU c.rxMTU := ⟨hp, rfl, rfl, rfl⟩
  obtain ⟨c1, hc1, hs⟩ := read_ok hc hb (handleRequest_read hh ha hv hr hf)
  unfold readLong
  rw [hs]
  simp only []
  obtain ⟨c', h1, -⟩ := readLongLoop_serves (rx := c.rxMTU) hh ha hv hr hf hb h2 hm hvl (v.length + 1) c1 hc1 (v.take (s.mtu - 1)) (v.take (s.mtu - 1))
    (by
      rw [List.length_take]
      rcases Nat.le_total (s.mtu - 1) v.length with h1 | h1
      · rw [Nat.min_eq_left h1]
      · rw [Nat.min_eq_right h1, List.take_of_length_le h1, List.take_length])
    (by omega)
    (by
      intro hlt
      rw [List.length_take] at hlt
      exact List.take_of_length_le (by omega))
  exact ⟨c', h1⟩

/-- **C25, refuted.** With a transmit MTU above the server's MTU, the call returns the first `MTU - 1` bytes of the value and no error. -/
theorem readLong_truncates (s : Server σ) (c : Cli (Server σ)) (h : Nat) (a : Attr σ) (f : ReadH σ) (v : Bytes) (hh : h < 65536)
    (ha : s.db.at h = some a) (hv : a.v = none) (hr : a.rh = some f) (hf : Serves f v) (hp : c.peer = s) (hb : 5 ≤ c.buf.length)
    (hm : s.mtu < c.txMTU) (hs0 : 0 < s.mtu) (fuel : Nat) :
    ∃ c', readLong serverPeer (fuel + 1) c h = .ok (some (c', v.take (s.mtu - 1))) := by
  have hc : Like c s c.buf.length c.txMTU c.rxMTU := ⟨hp, rfl, rfl, rfl⟩
  obtain ⟨c1, hc1, hs⟩ := read_ok hc hb (handleRequest_read hh ha hv hr hf)
  unfold readLong
  rw [hs]
  simp only []
  rw [readLongLoop, hc1.tx, if_neg (by rw [List.length_take]; omega)]
  exact ⟨c1, rfl⟩

/-- **C25, refuted end to end.** Two ends of this library agree on an MTU `m` below 515; then every value longer than `m - 1` bytes is read as its
first `m - 1` bytes, without an error. -/
theorem readLong_truncates_after_exchange (s : Server σ) (m : Nat) (h1 : 23 ≤ m) (h2 : m < 515) (h : Nat) (a : Attr σ) (f : ReadH σ) (v : Bytes)
    (hh : h < 65536) (ha : s.db.at h = some a) (hv : a.v = none) (hr : a.rh = some f) (hf : Serves f v) (hlong : m ≤ v.length) :
    ∃ c, exchangeMTU serverPeer (Cli.new s 23 23) m = .ok (c, 515) ∧
      (∀ fuel, ∃ c', readLong serverPeer (fuel + 1) c h = .ok (some (c', v.take (m - 1)))) ∧ v.take (m - 1) ≠ v := by
  obtain ⟨c, hc, hp, ht, hbl, -⟩ := exchangeMTU_with_server_partial s (Cli.new s 23 23) rfl (by simp [Cli.new]) m h1 (by omega) (by simp [Cli.new])
  have key : ∀ fuel, ∃ c'', readLong serverPeer (fuel + 1) c h = .ok (some (c'', v.take (m - 1))) := fun fuel =>
    readLong_truncates { s with mtu := m, rxMTU := 515 } c h a f v hh ha hv hr hf hp (by omega) (by simp only; omega) (by simp only; omega) fuel
  refine ⟨c, hc, key, ?_⟩
  intro he
  have := congrArg List.length he
  rw [List.length_take] at this
  omega

/-! ### Static values -/

theorem handleRequest_static {s : Server σ} {h off : Nat} {a : Attr σ} {v : Bytes} (hh : h < 65536) (ha : s.db.at h = some a) (hv : a.v = some v) :
    handleRequest s (0x0A :: put16 h) = (if 1 + v.length ≤ s.mtu then .ok (s, some (0x0B :: v)) else .panic) ∧
    handleRequest s (0x0C :: (put16 h ++ put16 off)) = (if 1 + v.length ≤ s.mtu then .ok (s, some (0x0D :: v)) else .panic) := by
  constructor
  · show handleRead s (0x0A :: put16 h) = _
    unfold handleRead
    have e1 : le16At (ε := Empty) (0x0A :: put16 h) 1 = .ok h := by have := le16At_put16 (ε := Empty) 0x0A h hh []; rwa [List.append_nil] at this
    rw [e1]
    simp only [index_cons_zero, Go.bind_ok]
    rw [if_neg (by simp), ha]
    simp only [hv, staticValue]
    split <;> rfl
  · show handleReadBlob s (0x0C :: (put16 h ++ put16 off)) = _
    unfold handleReadBlob
    rw [le16At_put16 0x0C h hh]
    simp only [index_cons_zero, Go.bind_ok]
    rw [if_neg (by simp), ha]
    simp only [hv, staticValue]
    split <;> rfl

/-- **C25 for static values.** A value that fits below the client's MTU is returned. If it fills a response of the client's size, the loop never
ends, because the server ignores the offset. If it does not fit in the server's MTU, the server crashes and the call fails. -/
theorem readLong_static (s : Server σ) (c : Cli (Server σ)) (h : Nat) (a : Attr σ) (v : Bytes) (hh : h < 65536)
    (ha : s.db.at h = some a) (hv : a.v = some v) (hp : c.peer = s) (hb : 5 ≤ c.buf.length) :
    (v.length + 1 ≤ s.mtu → v.length + 1 < c.txMTU → ∀ fuel, ∃ c', readLong serverPeer (fuel + 1) c h = .ok (some (c', v))) ∧
    (v.length + 1 ≤ s.mtu → c.txMTU ≤ v.length + 1 → ∀ fuel, readLong serverPeer fuel c h = .ok none) ∧
    (s.mtu < v.length + 1 → handleRequest s (0x0A :: put16 h) = .panic ∧ ∀ fuel, readLong serverPeer fuel c h = .err .transport) := by
  have hc : Like c s c.buf.length c.txMTU c.rxMTU := ⟨hp, rfl, rfl, rfl⟩
  refine ⟨?_, ?_, ?_⟩
  · intro h1 h2 fuel
    obtain ⟨c1, hc1, hs⟩ := read_ok hc hb (d := v) (by rw [(handleRequest_static (off := 0) hh ha hv).1, if_pos (by omega)])
    unfold readLong
    rw [hs]
    simp only []
    rw [readLongLoop, hc1.tx, if_neg (by omega)]
    exact ⟨c1, rfl⟩
  · intro h1 h2 fuel
    obtain ⟨c1, hc1, hs⟩ := read_ok hc hb (d := v) (by rw [(handleRequest_static (off := 0) hh ha hv).1, if_pos (by omega)])
    unfold readLong
    rw [hs]
    simp only []
    have main : ∀ n (c2 : Cli (Server σ)), Like c2 s c.buf.length c.txMTU c.rxMTU → ∀ buf, readLongLoop serverPeer h n c2 v buf = .ok none := by
      intro n
      induction n with
      | zero => intros; rfl
      | succ n ih =>
        intro c2 hc2 buf
        rw [readLongLoop, hc2.tx, if_pos (by omega)]
        obtain ⟨c3, hc3, hs3⟩ := readBlob_ok hc2 hb (d := v) (off := buf.length % 65536)
          (by rw [(handleRequest_static hh ha hv).2, if_pos (by omega)])
        rw [hs3]
        exact ih c3 hc3 _
    exact main _ c1 hc1 _
  · intro h1
    have hq : handleRequest s (0x0A :: put16 h) = .panic := by rw [(handleRequest_static (off := 0) hh ha hv).1, if_neg (by omega)]
    refine ⟨hq, fun fuel => ?_⟩
    have hx : serverPeer c.peer (0x0A :: put16 h) = .err .transport := by rw [hp]; simp only [serverPeer, hq]
    unfold readLong Client.read
    rw [send_exchange (by simp; omega), hx]
    rfl

/-! ### Examples -/

/-- A table with a value of 60 bytes served by a handler at handle 3. -/
def longServer (mtu : Nat) : Server Unit :=
  { db := ⟨1, [{ h := 1, endh := 3, typ := put16 0x2800, v := some (put16 0x180D) },
               { h := 2, typ := put16 0x2803, v := some [2, 3, 0, 0x37, 0x2A] },
               { h := 3, typ := put16 0x2A37, rh := some fun st off cap => .ok (st, [((List.replicate 60 (7 : UInt8)).drop off).take cap], 0) }]⟩,
    mtu := mtu, rxMTU := 515, prep := none, prepData := [], st := () }

example : (match readLong serverPeer 62 (Cli.new (longServer 23) 23 23) 3 with | .ok (some (_, v)) => v.length | _ => 0) = 60 := by rfl
example : (match readLong serverPeer 62 (Cli.new (longServer 23) 50 50) 3 with | .ok (some (_, v)) => v.length | _ => 0) = 22 := by rfl
example : ∃ a f, (longServer 23).db.at 3 = some a ∧ a.v = none ∧ a.rh = some f ∧ Serves f (List.replicate 60 7) :=
  ⟨_, _, rfl, rfl, rfl, fun _ _ _ => rfl⟩

end Ble.Props
