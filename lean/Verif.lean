import Verif.Props.Uuid
import Verif.Props.Adv
import Verif.Props.AttDb
import Verif.Props.AttServer
import Verif.Props.AttRead
import Verif.Props.AttWrite
import Verif.Props.Cccd
import Verif.Props.Discovery
import Verif.Props.DiscoveryChars
import Verif.Props.ClientCalls
import Verif.Props.ReadLong
import Verif.Props.ClientLoop
import Verif.Props.Subscriptions
import Verif.Props.H4
import Verif.Props.L2cap
import Verif.Props.Pool
import Verif.Props.Cmd
import Verif.Props.Signal
import Verif.Props.Coc
import Verif.Props.Evt
import Verif.Props.AdvHist
import Verif.Props.HciPkt
import Verif.Props.Conns
import Verif.Props.Params
import Verif.Props.SmpMethod
import Verif.Props.SmpCrypto
import Verif.Props.SmpHonest
import Verif.Props.SmpLegacy
import Verif.Props.SmpReject
import Verif.Props.SmpBond
import Verif.Props.SmpLive
import Verif.Props.SmpPair
import Verif.Props.SmpPasskey
import Verif.Props.SmpExamples
import Verif.Props.Bond
import Verif.Props.BondConc
import Verif.Props.Cache
import Verif.Props.CmdEnc
import Verif.Props.Dial
import Verif.Props.DialConn
import Verif.Props.Advertise
import Verif.Props.Indicate
import Verif.Props.Async
import Verif.Props.Init
import Verif.Props.PairAddr
import Verif.Hci.Encrypt
import Verif.Props.Encrypt
import Verif.Hci.Tx
import Verif.Props.Tx
import Verif.Hci.Flow
import Verif.Props.Flow
import Verif.Hci.Shutdown
import Verif.Props.Shutdown
import Verif.Hci.Connect
import Verif.Props.Connect
import Verif.Att.Registry
import Verif.Props.Registry
import Verif.Att.Build
import Verif.Props.Build
import Verif.Trans
import Verif.Hci.Peripheral
import Verif.Props.Peripheral
import Verif.Hci.Options
import Verif.Props.Options
import Verif.Hci.Device
import Verif.Props.Device
import Verif.Hci.Sock
import Verif.Props.Sock
import Verif.Hci.SockConc
import Verif.Props.SockConc
import Verif.Hci.H4Conc
import Verif.Props.H4Conc
import Verif.Props.SmpFrame
import Verif.Hci.AdvView
import Verif.Props.AdvView
import Verif.Hci.Scanning
import Verif.Props.Scanning
import Verif.Client.Locking
import Verif.Props.Locking
import Verif.Att.Pdu
import Verif.Att.PduSpec
import Verif.Att.PduTable
import Verif.Props.AttPdu
import Verif.Client.Sim
import Verif.Client.Air
import Verif.Props.Air
import Verif.Att.Pipe
import Verif.Props.Pipe
import Verif.Hci.EvtGet
import Verif.Hci.EvtTable
import Verif.Hci.EvtGenSpec
import Verif.Props.EvtGen
import Verif.Hci.Dials
import Verif.Props.Dials
import Verif.Props.Serial
import Verif.Client.Interrupt
import Verif.Props.Interrupt
import Verif.Hci.CocRx
import Verif.Props.CocRx
import Verif.Hci.SigConc
import Verif.Props.SigConc
import Verif.Hci.Reenter
import Verif.Props.Reenter
import Verif.Props.DialsLive
import Verif.Props.Whole
import Verif.Hci.Errs
import Verif.Props.Errs
import Verif.Props.Queue
import Verif.Props.Whole2
import Verif.Hci.InitSeq
import Verif.Props.InitSeq
import Verif.Props.PktEff
import Verif.Att.IndClose
import Verif.Props.IndClose
import Verif.Client.CacheProf
import Verif.Props.CacheProf
import Verif.Props.SmpOrigin
import Verif.Props.GattHist
import Verif.Props.BondFail
import Verif.Props.Exact
import Verif.Hci.CmdOwn
import Verif.Props.CmdOwn
import Verif.Props.FindType
import Verif.Client.AirSub
import Verif.Props.AirSub
import Verif.Props.SmpNonce
import Verif.Props.Kept
import Verif.Props.SmpSecReq
import Verif.Att.ExecBuf
import Verif.Props.ExecBuf
import Verif.Props.SmpKeySize
import Verif.Hci.Readers
import Verif.Props.Readers
import Verif.Hci.Links
import Verif.Props.Links
import Verif.Props.Links2
import Verif.Store.CacheConc
import Verif.Props.CacheConc
import Verif.Store.BondCrash
import Verif.Props.BondCrash
import Verif.Hci.ConnHandle
import Verif.Props.ConnHandle
import Verif.Locks.Model
import Verif.Locks.Code
import Verif.Locks.Check
import Verif.Props.Guard
import Verif.Props.PoolLive
import Verif.Hci.CocObj
import Verif.Props.CocObj
import Verif.Client.MtuHist
import Verif.Props.MtuHist
import Verif.Client.Ending
import Verif.Props.Ending
import Verif.Att.SrvEnd
import Verif.Props.SrvEnd
import Verif.Props.FailedDisc
import Verif.Client.History
import Verif.Props.DiscHist
import Verif.Hci.LinkEnc
import Verif.Props.LinkEnc
import Verif.Att.SrvFrag
import Verif.Props.SrvFrag
import Verif.Client.DialFrag
import Verif.Props.DialFrag
import Verif.Att.SrvBytes
import Verif.Props.SrvBytes
import Verif.Att.SrvAnswers
import Verif.Props.SrvAnswers
