import Verif.Bytes
import Verif.Kernel.Model
import Verif.Kernel.Spec
import Verif.Kernel.Ring
import Verif.Kernel.Sim
import Verif.Kernel.Refine
import Verif.Kernel.StepRefine
import Verif.Kernel.Trace
import Verif.Kernel.TraceInv
import Verif.Kernel.Reach
import Verif.Kernel.Props
import Verif.Kernel.PropsNeg
import Verif.Kernel.PropsOwn
import Verif.Kernel.ExamplesBase
import Verif.Kernel.Examples
import Verif.Kernel.ExamplesOwn
import Verif.Mem
import Verif.Libulog.Parse
import Verif.Libulog.ParseSpec
import Verif.Libulog.ParseProof
import Verif.Libulog.PropsParse
import Verif.Libulog.Raw
import Verif.Libulog.EndToEnd
import Verif.Libulog.PropsEnd
import Verif.Libulog.Bin
import Verif.Libulog.PropsBin
import Verif.Libulog.ExamplesEnd
import Verif.Libulog.Write
import Verif.Libulog.WriteProof
import Verif.Libulog.PropsWrite
import Verif.Libulog.PropsWriter
import Verif.Libulog.ExamplesWrite
import Verif.Libulog.Macros
import Verif.Libulog.PropsMacros
import Verif.Libulog.MacrosErrno
import Verif.Libulog.PropsErrno
import Verif.Libulog.Conc
import Verif.Libulog.ConcInv
import Verif.Libulog.ConcStep
import Verif.Libulog.PropsConc
import Verif.Libulog.ExamplesConc
import Verif.Libulog.ConcW
import Verif.Libulog.ConcWInv
import Verif.Libulog.PropsConcW
import Verif.Libulog.ExamplesConcW
import Verif.Libulog.Builds
import Verif.Libulog.PropsBuilds
import Verif.Libulog.ExamplesBuilds
import Verif.Kernel.Variants
import Verif.Kernel.PropsVariants
import Verif.Kernel.Locks
import Verif.Kernel.PropsLocks
import Verif.Kernel.ExamplesVariants
import Verif.Kernel.Wait
import Verif.Kernel.PropsWait
import Verif.Kernel.ExamplesWait
import Verif.Kernel.Registry
import Verif.Kernel.PropsRegistry
import Verif.Kernel.ExamplesRegistry
import Verif.Ulogcat.Core
import Verif.Ulogcat.CoreInv
import Verif.Ulogcat.Merge
import Verif.Ulogcat.Quiet
import Verif.Ulogcat.Calm
import Verif.Ulogcat.PropsCore
import Verif.Ulogcat.Follow
import Verif.Ulogcat.PropsFollow
import Verif.Ulogcat.ExamplesCore
import Verif.Ulogcat.Text
import Verif.Ulogcat.TextProof
import Verif.Ulogcat.CsvSpec
import Verif.Ulogcat.PropsText
import Verif.Ulogcat.PropsKlogEx
import Verif.Ulogcat.ExamplesText
import Verif.Ulogcat.Colors
import Verif.Ulogcat.PropsColors
import Verif.Ulogcat.Klog
import Verif.Ulogcat.KlogProof
import Verif.Ulogcat.PropsKlog
import Verif.Ulogcat.ExamplesKlog
import Verif.Ulogcat.Open
import Verif.Ulogcat.PropsOpen
import Verif.Ulogcat.OutFd
import Verif.Ulogcat.PropsOutFd
import Verif.Ulogcat.ExamplesOpen
import Verif.Tools.Kmsgd
import Verif.Tools.PropsKmsgd
import Verif.Tools.ExamplesKmsgd
import Verif.Tools.Shd
import Verif.Tools.PropsShd
import Verif.Tools.ExamplesShd
import Verif.Tools.Ctl
import Verif.Tools.PropsCtl
import Verif.Tools.PropsCtlNet
import Verif.Tools.ExamplesCtl
import Verif.Tools.Syslog
import Verif.Tools.PropsSyslog
import Verif.Tools.Gst
import Verif.Tools.PropsGst
import Verif.Tools.Redirect
import Verif.Tools.PropsRedirect
import Verif.Tools.ExamplesRedirect
import Verif.Tools.Stream
import Verif.Tools.PropsStream
import Verif.Tools.PropsCerr
import Verif.Tools.ExamplesWrap
import Verif.Tools.Py
import Verif.Tools.PropsPy
import Verif.Tools.PyLog
import Verif.Tools.PropsPyLog
import Verif.Tools.ExamplesPy
import Verif.Tools.Tx
import Verif.Tools.PropsTx
import Verif.Tools.ExamplesTx
import Verif.Ulogcat.Receive
import Verif.Ulogcat.PropsReceive
import Verif.Ulogcat.ExamplesReceive
import Verif.Ulogcat.Sim
import Verif.Ulogcat.Driven
import Verif.Ulogcat.PropsDriven
import Verif.Ulogcat.ExamplesDriven
import Verif.Ulogcat.Kmsg
import Verif.Ulogcat.PropsKmsg
import Verif.Ulogcat.ExamplesKmsg
import Verif.Tools.Ulogger
import Verif.Tools.PropsUlogger
import Verif.Tools.ExamplesUlogger
import Verif.Tools.Cat
import Verif.Tools.PropsCat
import Verif.Tools.ExamplesCat
import Verif.Ulogcat.Output
import Verif.Ulogcat.PropsOutput
import Verif.Ulogcat.Screen
import Verif.Ulogcat.PropsScreen
import Verif.Ulogcat.PropsLine
import Verif.Ulogcat.ExamplesScreen
import Verif.Ulogcat.Alone
import Verif.Ulogcat.PropsSaid
import Verif.Ulogcat.ExamplesSaid
import Verif.Kernel.Driver
import Verif.Kernel.PropsDriver
import Verif.Kernel.ExamplesDriver
import Verif.Kernel.Life
import Verif.Kernel.LifeRen
import Verif.Kernel.LifeMem
import Verif.Kernel.LifeOpen
import Verif.Kernel.LifeAdd
import Verif.Kernel.LifeSim
import Verif.Kernel.LifeRun
import Verif.Kernel.PropsLife
import Verif.Kernel.ExamplesLife
import Verif.Tools.ShdConc
import Verif.Tools.PropsShdConc
import Verif.Tools.ExamplesShdConc
import Verif.Kernel.Ioctl
import Verif.Kernel.PropsIoctl
import Verif.Kernel.ExamplesIoctl
import Verif.Tools.TxConc
import Verif.Tools.PropsTxConc
import Verif.Tools.ExamplesTxConc
import Verif.Kernel.Poll
import Verif.Kernel.PropsPoll
import Verif.Kernel.ExamplesPoll
import Verif.Kernel.Stamp
import Verif.Kernel.PropsStamp
import Verif.Kernel.ExamplesStamp
import Verif.Tools.First
import Verif.Tools.PropsFirst
import Verif.Tools.ExamplesFirst
import Verif.Tools.ShdMain
import Verif.Tools.PropsShdMain
import Verif.Tools.ExamplesShdMain
import Verif.Tools.PropsWhole
import Verif.Tools.ExamplesWhole
import Verif.Tools.CliMem
import Verif.Tools.PropsCliMem
import Verif.Tools.ExamplesCliMem
import Verif.Ulogcat.Stands
import Verif.Ulogcat.PropsLost
import Verif.Ulogcat.ExamplesLost
import Verif.Tools.PropsLostCat
import Verif.Tools.ExamplesLostCat
import Verif.Ulogcat.PropsLive
import Verif.Ulogcat.ExamplesLive
import Verif.Ulogcat.PropsOrder
import Verif.Ulogcat.ExamplesOrder
import Verif.Ulogcat.While
import Verif.Ulogcat.PropsWhile
import Verif.Ulogcat.CatchUp
import Verif.Ulogcat.PropsCatchUp
import Verif.Ulogcat.ExamplesWhile
import Verif.Ulogcat.Tail
import Verif.Ulogcat.PropsTail
import Verif.Ulogcat.ExamplesTail
import Verif.Ulogcat.PropsTailScreen
import Verif.Ulogcat.ExamplesTailScreen
import Verif.Ulogcat.PropsFollowTail
import Verif.Tools.PropsWholeFollow
import Verif.Tools.ExamplesWholeFollow
import Verif.Tools.Getopt
import Verif.Tools.PropsGetopt
import Verif.Tools.ExamplesGetopt
import Verif.Tools.CtlArgs
import Verif.Tools.PropsCtlArgs
import Verif.Tools.ExamplesCtlArgs
import Verif.Tools.PropsSession
import Verif.Tools.ExamplesSession
import Verif.Tools.SrvArgs
import Verif.Tools.PropsSrvArgs
import Verif.Tools.ExamplesSrvArgs
import Verif.Tools.Device
import Verif.Tools.PropsDevice
import Verif.Tools.ExamplesDevice
import Verif.Ulogcat.Fleet
import Verif.Ulogcat.PropsFleet
import Verif.Ulogcat.ExamplesFleet
import Verif.Tools.PropsKernelLog
import Verif.Tools.ExamplesKernelLog
import Verif.Tools.PropsShell
import Verif.Tools.ExamplesShell
import Verif.Ulogcat.Queue
import Verif.Ulogcat.QueueRing
import Verif.Ulogcat.QueueProof
import Verif.Ulogcat.QueueSim
import Verif.Ulogcat.QueueLoop
import Verif.Ulogcat.QueueOpen
import Verif.Ulogcat.PropsQueue
import Verif.Ulogcat.ExamplesQueue
import Verif.Ulogcat.ExamplesOutput
import Verif.Libulog.OpenDev
import Verif.Libulog.PropsOpenDev
import Verif.Libulog.ExamplesOpenDev
import Verif.Tools.Wrapper
import Verif.Tools.PropsWrapper
import Verif.Tools.ExamplesWrapper
import Verif.Tools.CtlTool
import Verif.Tools.PropsCtlTool
import Verif.Tools.ExamplesCtlTool
import Verif.Tools.Shdlogd
import Verif.Tools.PropsShdlogd
import Verif.Tools.ExamplesShdlogd
import Verif.Tools.PropsShm
import Verif.Tools.PropsRemote
import Verif.Tools.ExamplesRemote
import Verif.Tools.CtlSrv
import Verif.Tools.PropsCtlSrv
import Verif.Tools.ExamplesShm
import Verif.Tools.ShApi
import Verif.Tools.PropsShApi
import Verif.Tools.ExamplesShApi
import Verif.Tools.PyDev
import Verif.Tools.PropsPyDev
import Verif.Tools.PropsPyScreen
import Verif.Tools.ExamplesPyDev
import Verif.Tools.PySetup
import Verif.Tools.PropsPySetup
import Verif.Tools.ExamplesPySetup
