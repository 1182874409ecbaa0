import Verif.Props.Stream
import Verif.Props.Blob
import Verif.Props.Bits
import Verif.Props.NetAddr
import Verif.Props.Msg
import Verif.Props.SegBuffer
import Verif.Props.ConnIO
import Verif.Props.Util
import Verif.Props.Rc
import Verif.Props.Arc
import Verif.Props.ThreadCall
import Verif.Props.Dispatch
import Verif.Props.Pool
import Verif.Props.Client
import Verif.Props.CError
import Verif.Props.PeerNet
import Verif.Props.PeerQuery
import Verif.Props.PeerLife
import Verif.Props.PeerName
import Verif.Props.PeerBeat
import Verif.Props.SendApi
import Verif.Props.Digest
import Verif.Props.PeerPair
import Verif.Props.Heartbeat
import Verif.Props.PeerBuf
import Verif.Props.FreeList
import Verif.Props.Queue
import Verif.Props.QueueCap
import Verif.Props.Event
import Verif.Props.Tls
import Verif.Props.Starve
import Verif.Props.SyncCall
import Verif.Props.Sock
import Verif.Props.Sys
import Verif.Props.WQueue
import Verif.Props.Races
import Verif.Props.SendRace
import Verif.Props.Net
import Verif.Props.CApi
import Verif.Props.Keys
import Verif.Props.Setup
import Verif.Props.Stat
import Verif.Props.StreamVar
import Verif.Props.Logger
import Verif.Props.QueueAny
import Verif.Props.QueueProg
import Verif.Props.QueueProgAny
import Verif.Props.PoolMsg
import Verif.Props.Timer
import Verif.Props.ConnRef
import Verif.Props.Notify
import Verif.Props.PeerPlain
import Verif.Props.PeerIdle
import Verif.Props.PeerHeld
import Verif.Props.CertShare
import Verif.Props.CConn
import Verif.Props.Fatal
import Verif.Props.PeerFail
import Verif.Props.PeerAuth
import Verif.Props.PeerMsg
import Verif.Props.PeerAsk
import Verif.Props.SendRoom
import Verif.Props.NetGone
import Verif.Props.Elapsed
import Verif.Props.KeyFile
import Verif.Props.QueueGone
import Verif.Props.QueueOwn
import Verif.Props.SelfSigned
import Verif.Props.Der
import Verif.Props.Getopt
import Verif.Props.Help
import Verif.Props.OptInt
import Verif.Props.Stamp
import Verif.Props.AddrText
import Verif.Props.CAddr
