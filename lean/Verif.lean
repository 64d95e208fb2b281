import Verif.Handshake.Props
import Verif.Checksum.Props
import Verif.Bufio.Props
import Verif.Bufio.Lines
import Verif.Route.Props
import Verif.Route.Trim
import Verif.Tunnel.Props
import Verif.TaskId.Props
import Verif.SyncMap.Seq
import Verif.SyncMap.Conc
import Verif.SyncMap.Hindsight
import Verif.SyncMap.ConcInv
import Verif.SyncMap.ConcSim
import Verif.SyncMap.ConcProps
import Verif.SyncMap.ConcCreate
import Verif.Idle.Props
import Verif.Limits.Speed
import Verif.Limits.Token
import Verif.Limits.Reconnect
import Verif.Registry.PrefixProps
import Verif.Config.Users
import Verif.Ports.Race
import Verif.Ports.Range
import Verif.Client.HostRewrite
import Verif.Client.Chunked
import Verif.Client.Pipe
import Verif.Client.ApiConn
import Verif.Client.Counts
import Verif.Client.Ping
import Verif.Util.BlockValue
import Verif.Util.CloseOnce
import Verif.Util.Backoff
import Verif.Util.Stdio
import Verif.Util.RotateLogs
import Verif.Config.Services
import Verif.Config.OptValues
import Verif.Web.ConnFilter
import Verif.Client.PeerMsg
import Verif.Server.Accounting
import Verif.Config.Merge
import Verif.Config.OptionTable
import Verif.Tunnel.End
import Verif.Tunnel.Peer
import Verif.Client.ChunkedSound
import Verif.Bufio.Errors
import Verif.Registry.JoinProps
import Verif.Manager.Collect
import Verif.Manager.Reload
import Verif.Manager.Supervise
import Verif.Registry.Origin
import Verif.Registry.InitRace
import Verif.P2P.Table
import Verif.P2P.Session
import Verif.P2P.Routes
import Verif.P2P.PeerLoop
import Verif.P2P.ThreadIdle
import Verif.P2P.SendWait
import Verif.P2P.Callback
import Verif.P2P.Forward
import Verif.P2P.ForwardSetup
import Verif.Reload.RouteThms
import Verif.Reload.Wait
import Verif.Client.Dialer
import Verif.Client.Loop
import Verif.Client.Ready
import Verif.Process.Lifecycle
import Verif.Server.Status
import Verif.Web.Access
import Verif.Web.Listen
import Verif.Quic.Accept
import Verif.Quic.Stream
import Verif.Quic.Deadline
import Verif.Client.ApiDeadline
import Verif.Server.Start
import Verif.Server.AcceptLoop
import Verif.P2P.Connect
import Verif.Manager.Signals
import Verif.Process.Sig
import Verif.Server.Platform
import Verif.Server.Dispatch
import Verif.P2P.Gather
import Verif.Config.Limits
import Verif.Tunnel.Stall
import Verif.Util.Pool
import Verif.Util.PoolUsers
import Verif.Registry.FirstJoin
import Verif.EndToEnd
import Verif.Client.StartStop
import Verif.Server.Announce
import Verif.Tunnel.HalfClose
import Verif.EndToEndTcp
import Verif.Util.LogAge
import Verif.Quic.Worker
import Verif.Server.Answer
import Verif.Server.Visitors
import Verif.P2P.Answers
import Verif.Client.LocalConns
import Verif.Reload.Decide
import Verif.Util.LogCrash
import Verif.Config.Duration
import Verif.Bufio.Writer
import Verif.Bufio.Scanner
import Verif.Bufio.Runes
import Verif.Util.Rand
import Verif.P2P.Native
import Verif.P2P.Children
import Verif.Bufio.ReadRune
import Verif.Bufio.WriteTo
import Verif.Bufio.Words
import Verif.Web.Link
import Verif.Tunnel.Torn
import Verif.Server.Halt
import Verif.Bufio.ReadFrom
import Verif.Quic.Close
