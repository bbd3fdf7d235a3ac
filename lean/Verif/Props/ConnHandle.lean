import Verif.Hci.ConnHandle
import Verif.Props.Conns
set_option autoImplicit false

/-!
# What `ConnectionHandle` tells (C198)
-/

namespace Ble.Props

open Ble.Conns Ble.HciPkt ConnsAux

/-- C198, for controllers that use handles below 256 (or handles that differ in their low byte): at every point of every history two connections in use have different values of `ConnectionHandle`, and with handles below 256 the value is
the controller's handle. Missing: handles up to 0x0EFF, which controllers may use; then it fails (`connection_handles_alike`). -/
theorem connection_handle_tells_partial (s : State) (hs : ConnReachable s) (h h' i j : Nat) (c d : Conn) (hi : s.table h = some i) (hj : s.table h' = some j) (hc : s.conns[i]? = some c) (hd : s.conns[j]? = some d) (hne : i ≠ j) :
    (h < 256 → c.connectionHandle.toNat = h) ∧ (h < 256 ∧ h' < 256 ∨ h % 256 ≠ h' % 256 → c.connectionHandle ≠ d.connectionHandle) := by
  have inv := reachable_inv hs
  obtain ⟨c', h1, h2, _⟩ := inv.listed h i hi
  obtain ⟨d', h3, h4, _⟩ := inv.listed h' j hj
  rw [hc] at h1; obtain rfl := Option.some.inj h1
  rw [hd] at h3; obtain rfl := Option.some.inj h3
  have hhh : h ≠ h' := fun e => hne (Option.some.inj (hi.symm.trans (e ▸ hj)))
  constructor
  · intro hl
    simp only [Conn.connectionHandle, h2, UInt8.toNat_ofNat']
    omega
  · intro hor he
    have := congrArg UInt8.toNat he
    simp only [Conn.connectionHandle, h2, h4, UInt8.toNat_ofNat'] at this
    omega

/-- C198, negative: two connections with the handles 0x0040 and 0x0140, which a controller may assign, are both in use and have the same `ConnectionHandle`. -/
theorem connection_handles_alike (smp handler : Bool) (scan : AdvHist.Scan) : ∃ s, run (init smp handler scan)
      [.packet [0x04, 0x3e, 0x13, 0x01, 0x00, 0x40, 0x00, 0x00, 0x00, 1, 2, 3, 4, 5, 6, 0x18, 0x00, 0x00, 0x00, 0x48, 0x00, 0x00],
       .packet [0x04, 0x3e, 0x13, 0x01, 0x00, 0x40, 0x01, 0x00, 0x00, 9, 8, 7, 6, 5, 4, 0x18, 0x00, 0x00, 0x00, 0x48, 0x00, 0x00]] = .ok s ∧
    ∃ c d, s.table 0x0040 = some 0 ∧ s.table 0x0140 = some 1 ∧ s.conns[0]? = some c ∧ s.conns[1]? = some d ∧ c.handle = 0x0040 ∧ d.handle = 0x0140 ∧ c.connectionHandle = d.connectionHandle := by
  refine ⟨_, rfl, _, _, rfl, rfl, rfl, rfl, rfl, rfl, ?_⟩
  simp only [Conn.connectionHandle]
  decide

end Ble.Props
