import Verif.Props.Queue
import Verif.Props.BuffersQueue
import Verif.Props.Events
import Verif.Props.Command
import Verif.Props.CmdString
import Verif.Props.Pointer
import Verif.Props.Buffer
import Verif.Props.Pool
import Verif.Props.Record
import Verif.Props.FieldsMap
import Verif.Props.History
import Verif.Props.Hierarchy
import Verif.Props.Json
import Verif.Props.Url
import Verif.Props.WorkerHalt
import Verif.Props.HadTu
import Verif.Props.HadIter
import Verif.Props.HadWrite
import Verif.Props.Trig
import Verif.Props.Sorter
import Verif.Props.Udp
import Verif.Props.Combiner
import Verif.Props.LocalTransport
import Verif.Props.BinaryFile
import Verif.Props.HldFile
import Verif.Props.LmdFile
import Verif.Props.MbsIter
import Verif.Props.MbsComb
import Verif.Props.NameMatch
import Verif.Props.RefVector
import Verif.Props.DateTime
import Verif.Props.NetTransport
import Verif.Props.SocketNet
import Verif.Props.ObjLife
import Verif.Props.WorkerHalt
import Verif.Props.TextForm
import Verif.Props.FileName
import Verif.Props.InpTransport
import Verif.Props.OutTransport
import Verif.Props.Timeouts
import Verif.Props.Multiplexer
import Verif.Props.WaitEvent
import Verif.Props.Xml
import Verif.Props.Resolve
import Verif.Props.ConfigFind
import Verif.Props.ConfigIO
import Verif.Props.ConnMgr
import Verif.Props.ConnObject
import Verif.Props.Param
import Verif.Props.ParEvents
import Verif.Props.CmdDef
import Verif.Props.SockCmd
import Verif.Props.SockWire
import Verif.Props.MbsNet
import Verif.Props.MbsSpan
import Verif.Props.MbsServer
import Verif.Props.SockDevice
import Verif.Props.AppState
import Verif.Props.HldOut
import Verif.Props.BnetMaster
import Verif.Props.BnetNode
import Verif.Props.PublTree
import Verif.Props.HttpServer
import Verif.Props.Logging
import Verif.Props.HierStore
import Verif.Props.PublReg
import Verif.Props.ModConn
import Verif.Props.AsyncLoop
import Verif.Props.SyncWait
import Verif.Props.SyncCmd
import Verif.Props.ModuleItems
import Verif.Props.Statistic
import Verif.Props.TextInput
import Verif.Props.ObjIter
import Verif.Props.SyncExec
import Verif.Props.WorkCmd
import Verif.Props.ThrStart
import Verif.Props.Affinity
import Verif.Props.Timer
import Verif.Props.Aqua
import Verif.Props.Readout
import Verif.Props.SlowData
import Verif.Props.SlowSend
import Verif.Props.Saft
import Verif.Props.StreamRun
import Verif.Props.StreamMerge
import Verif.Props.MbsGen
import Verif.Props.UserInput
import Verif.Props.DimInfo
import Verif.Props.ExeCmd
import Verif.Props.MbsCmd
import Verif.Props.Depend
import Verif.Props.Create
import Verif.Props.MainLoop
import Verif.Props.TransCmd
import Verif.Props.Recalib
import Verif.Props.TdcRetr
import Verif.Props.TrbMon
import Verif.Props.Profiler
import Verif.Props.Rfio
import Verif.Props.Gosip
