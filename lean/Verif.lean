import Verif.Props.Serial
import Verif.Props.Protocol
import Verif.Props.ChunkExchange
import Verif.Props.Negotiation
import Verif.Props.Chunks
import Verif.Props.SourceQueue
import Verif.Props.QueueFiles
import Verif.Props.History
import Verif.Props.SenderFinish
import Verif.Props.SenderThread
import Verif.Props.Reporting
import Verif.Props.TransferLog
import Verif.Props.ThreadsController
import Verif.Props.ReceiverFinish
import Verif.Props.ReceiverStream
import Verif.Props.SenderStream
import Verif.Props.EncSocket
import Verif.Props.EncCheck
import Verif.Props.EncSettings
import Verif.Props.SenderThreadOk
import Verif.Props.Uri
import Verif.Props.UriRequest
import Verif.Props.ResourceController
import Verif.Props.Throttler
import Verif.Props.FileByteSource
import Verif.Props.FileWriter
import Verif.Props.FileCreator
import Verif.Props.Paths
import Verif.Props.Abort
import Verif.Props.DestFile
import Verif.Props.ReceiverVerify
import Verif.Props.Discovery
import Verif.Props.DiscoveryLinks
import Verif.Props.DiscoveryReport
import Verif.Props.LogSession
import Verif.Props.LogTree
import Verif.Props.LogKeep
import Verif.Props.EndToEnd
import Verif.Props.EndToEndWait
import Verif.Props.EndToEndCalm
import Verif.Props.EndToEndFiles
import Verif.Props.QueueWait
import Verif.Props.ReceiverEnds
import Verif.Props.SocketWait
import Verif.Props.SocketListen
import Verif.Props.Sessions
import Verif.Props.CmdLine
import Verif.Props.EndToEndComplete
import Verif.Props.Setup
import Verif.Props.Lifecycle
import Verif.Props.Resume
import Verif.Props.Power
import Verif.Props.WdtApi
import Verif.Props.CmdMain
import Verif.Props.RateSys
import Verif.Props.PerfStat
import Verif.Props.Fds
import Verif.Props.SenderThreadEnds
import Verif.Props.Progress
import Verif.Props.BackChannel
import Verif.Props.EncReceive
import Verif.Props.EncHostile
import Verif.Props.BrokenConn
import Verif.Props.Histogram
import Verif.Props.AppRegistry
import Verif.Props.AbortTimer
import Verif.Props.LogSafe
import Verif.Props.ProgressCalls
import Verif.Props.BrokenEnc
import Verif.Props.HostileStream
import Verif.Props.HostileReply
import Verif.Props.TransferRegistry
import Verif.Props.Crc
import Verif.Props.Damage
import Verif.Props.SocketLife
import Verif.Props.Mismatch
import Verif.Props.ThreadCalls
import Verif.Props.HistoryByPort
import Verif.Props.UriErrors
import Verif.Props.SocketRetry
import Verif.Props.ThreadBuffer
import Verif.Props.SocketTimeouts
import Verif.Props.Rounds
