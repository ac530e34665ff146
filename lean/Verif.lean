import Verif.Props.Buffer
import Verif.Props.Header
import Verif.Props.MachinePage
import Verif.Props.Motan2
import Verif.Props.Simple
import Verif.Props.Convert
import Verif.Props.Motan1
import Verif.Props.Motan1Panics
import Verif.Props.Serving
import Verif.Props.Cgi
import Verif.Props.Url
import Verif.Props.Config
import Verif.Props.CowMap
import Verif.Props.Attachments
import Verif.Props.Switcher
import Verif.Props.Select
import Verif.Props.Weighted
import Verif.Props.Weights
import Verif.Props.ConfUrl
import Verif.Props.Swrr
import Verif.Props.Ha
import Verif.Props.Export
import Verif.Props.Failfast
import Verif.Props.Filters
import Verif.Props.Frame
import Verif.Props.Endpoint
import Verif.Props.Availability
import Verif.Props.Stream
import Verif.Props.RefersFilter
import Verif.Props.Cluster
import Verif.Props.SwitcherCommand
import Verif.Props.Command
import Verif.Props.Server
import Verif.Props.Dynamic
import Verif.Props.Zk
import Verif.Props.ZkTree
import Verif.Props.HttpProxy
import Verif.Props.Race
import Verif.Props.Recorder
import Verif.Props.Pool
import Verif.Props.Request
import Verif.Props.Metrics
import Verif.Props.Recycle
import Verif.Props.Pb
import Verif.Props.Provider
import Verif.Props.ConnPool
import Verif.Props.HttpProvider
import Verif.Props.Reload
import Verif.Props.ReloadSubscription
import Verif.Props.ReloadInterleaved
import Verif.Props.Call
import Verif.Props.Relay
import Verif.Props.LogFile
import Verif.Props.Varint
import Verif.Props.Watch
import Verif.Props.HttpMesh
import Verif.Props.HashRing
import Verif.Props.RateLimit
import Verif.Props.Observe
import Verif.Props.Direct
import Verif.Props.Mesh
import Verif.Props.Graphite
import Verif.Props.HttpX
import Verif.Props.AccessLog
import Verif.Props.Params
import Verif.Props.Manage
import Verif.Props.Told
import Verif.Props.Retry
import Verif.Props.Rotation
import Verif.Props.Reply
import Verif.Props.Hedge
import Verif.Props.Breaker
import Verif.Props.BreakerCost
import Verif.Props.BreakerConcurrent
import Verif.Props.BreakerRandom
import Verif.Props.BreakerWeighted
import Verif.Props.Trace
import Verif.Props.IdcGroup
import Verif.Props.Ping
import Verif.Props.LogFilter
import Verif.Props.AgentCommand
import Verif.Props.Startup
import Verif.Props.Client
import Verif.Props.Snapshot
import Verif.Props.Meta
import Verif.Props.EndpointConf
import Verif.Props.Locks
import Verif.Props.Nginx
import Verif.Props.Ext
import Verif.Props.StatusPage
import Verif.Props.Hourly
import Verif.Props.Start
import Verif.Props.Workers
import Verif.Props.Accept
import Verif.Props.Admin
import Verif.Props.Inproc
import Verif.Props.Runtime
import Verif.Props.DynParam
import Verif.Props.Context
import Verif.Props.Delay
