import Verif.Thm.ConstantTime
import Verif.Thm.Msgs
import Verif.Thm.HashDomain
import Verif.Thm.Agreement
import Verif.Thm.Invariant
import Verif.Thm.Index
import Verif.Thm.KeyAgreement
import Verif.Thm.Messages
import Verif.Thm.Replay
import Verif.Thm.Effects
import Verif.Thm.Total
import Verif.Thm.Load
import Verif.Thm.Secrets
import Verif.Thm.Biscuits
import Verif.Thm.Timers
import Verif.Thm.Lifecycle
import Verif.Thm.Rekey
import Verif.Thm.Retransmit
import Verif.Thm.Authentic
import Verif.Thm.TimerEx
import Verif.Thm.Transcript
import Verif.Thm.LengthPrefix
import Verif.Thm.LengthPrefixApi
import Verif.Thm.FileIO
import Verif.Thm.Fair
import Verif.Thm.Build
import Verif.Thm.Endpoint
import Verif.Thm.App
import Verif.Thm.AppHist
import Verif.Thm.AppLoop
import Verif.Thm.AppEx
import Verif.Thm.Recv
import Verif.Thm.FdPass
import Verif.Thm.ApiMsgs
import Verif.Thm.ApiConn
import Verif.Thm.ApiHist
import Verif.Thm.ApiLive
import Verif.Thm.ApiManager
import Verif.Thm.Broker
import Verif.Thm.BrokerClient
import Verif.Thm.BrokerSocket
import Verif.Thm.BrokerSpawn
import Verif.Thm.BrokerHandler
import Verif.Thm.Config
import Verif.Thm.ConfigParse
import Verif.Thm.ConfigEx
import Verif.Thm.RpCli
import Verif.Thm.KeyGen
import Verif.Thm.RpKey
import Verif.Thm.Startup
import Verif.Thm.Janitor
import Verif.Thm.SecretMem
import Verif.Thm.NativeUnix
import Verif.Thm.RpDevice
import Verif.Thm.RpExchange
import Verif.Thm.AppPeers
import Verif.Thm.ApiExtra
import Verif.Thm.SymbolicAuth
import Verif.Thm.SymbolicEx
import Verif.Thm.SymbolicLink
import Verif.Thm.Aead
import Verif.Thm.Serialization
import Verif.Thm.EndToEnd
import Verif.Thm.Typenum
import Verif.Thm.Recovery
import Verif.Thm.Renewal
import Verif.Thm.Crossed
import Verif.Thm.CookieBind
import Verif.Thm.RespOnce
import Verif.Thm.UnderLoad
import Verif.Thm.Counter
import Verif.Thm.SecretAlloc
import Verif.Thm.RefMaker
import Verif.Thm.To
import Verif.Thm.ApiLeak
import Verif.Thm.Fds
import Verif.Thm.FdsApi
import Verif.Thm.BrokerFlush
import Verif.Thm.Envelope
import Verif.Thm.AnonymityEx
import Verif.Thm.Daemons
import Verif.Thm.CliEx
import Verif.Thm.RpMainLater
import Verif.Thm.Blank
import Verif.Thm.Debug
import Verif.Thm.CtCode
import Verif.Thm.F64
import Verif.Thm.Device
import Verif.Thm.Paper
import Verif.Thm.Interop
import Verif.Thm.PaperCookie
import Verif.Thm.Published
import Verif.Thm.DeviceCurrent
import Verif.Thm.DaemonRenewal
import Verif.Thm.KeyRecovery
import Verif.Thm.PollBounds
import Verif.Thm.Primitives
import Verif.Thm.Domains
import Verif.Thm.KeccakFast
import Verif.Thm.RecordedHashes
import Verif.Thm.Recorded
import Verif.Thm.ConfigToml
import Verif.Thm.ConfigTomlUse
