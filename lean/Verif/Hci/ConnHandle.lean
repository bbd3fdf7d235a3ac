import Verif.Hci.Conns
set_option autoImplicit false

/-!
# Model of `ConnectionHandle`

linux/hci/conn.go:568-570, returned by `Client.ConnectionHandle` too (linux/gatt/client.go:481-483).
-/

namespace Ble.Conns

/-- `Conn.ConnectionHandle`: conn.go:568-570. -/
def Conn.connectionHandle (c : Conn) : UInt8 := UInt8.ofNat (c.handle % 256)

end Ble.Conns
