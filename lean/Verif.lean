import Verif.Model.Views
import Verif.Model.Text
import Verif.Model.BufferViews
import Verif.Props.Views
import Verif.Props.Text
import Verif.Spec.Names
import Verif.Props.Names
import Verif.Props.BufferViews
import Verif.Spec.Coherent
import Verif.Proofs.Coherent
import Verif.Proofs.Cells
import Verif.Props.Coherent
import Verif.Props.RingShm
import Verif.Proofs.RingShm
import Verif.Spec.RingShm
import Verif.Model.RingShm
import Verif.Props.Edges
import Verif.Props.Exact
import Verif.Proofs.MapIfAll
import Verif.Spec.BigFile
import Verif.Props.Os
import Verif.Spec.Os
import Verif.Props.BufferStd
import Verif.Proofs.BufferStd
import Verif.Spec.BufferStd
import Verif.Model.BufferStd
import Verif.Props.SysInfo
import Verif.Proofs.SysInfo
import Verif.Spec.SysInfo
import Verif.Model.SysInfo
import Verif.Model.Windows
import Verif.Model.WinJob
import Verif.Model.Copy
import Verif.Model.FromPtr
import Verif.Spec.Windows
import Verif.Proofs.Windows
import Verif.Props.Windows
import Verif.Props.Mach
import Verif.Spec.Mach
import Verif.Model.Mach
import Verif.Props.Memfd
import Verif.Proofs.Memfd
import Verif.Spec.Memfd
import Verif.Model.Memfd
import Verif.Props.Error
import Verif.Spec.Error
import Verif.Props.World
import Verif.Proofs.WorldStep
import Verif.Proofs.WorldInv
import Verif.Proofs.World
import Verif.Spec.World
import Verif.Props.MapUse
import Verif.Props.MapRange
import Verif.Props.MapMake
import Verif.Proofs.RangeOp
import Verif.Proofs.MapOps
import Verif.Proofs.Alloc
import Verif.Proofs.Sys
import Verif.Proofs.MapIfFrame
import Verif.Props.Open
import Verif.Props.Options
import Verif.Props.Span
import Verif.Proofs.Span
import Verif.Proofs.Open
import Verif.Proofs.Map
import Verif.Proofs.Store
import Verif.Proofs.MapIf
import Verif.Proofs.File
import Verif.Spec.DemoMap
import Verif.Spec.Builder
import Verif.Spec.Span
import Verif.Spec.Map
import Verif.Model.Span
import Verif.Model.Map
import Verif.Model.File
import Verif.Props.BufWriter
import Verif.Props.BufReader
import Verif.Proofs.BufWriter
import Verif.Proofs.BufReader
import Verif.Proofs.RingView
import Verif.Model.Buffer
import Verif.Spec.Buffer
import Verif.Props.RingMap
import Verif.Model.Platform
import Verif.Spec.Platform
import Verif.Proofs.Platform
import Verif.Props.Platform
import Verif.Props.CrateTests
import Verif.Spec.BufWorld
import Verif.Proofs.BufWorld
import Verif.Props.BufWorld
import Verif.Props.InfiniteRing
import Verif.Props.Ring32
import Verif.Props.RingStd
import Verif.Props.Ring
import Verif.Model.RingApi
import Verif.Model.RingStd
import Verif.Proofs.Window
import Verif.Proofs.RingAt
import Verif.Proofs.InfiniteRing
import Verif.Proofs.Ring
import Verif.Proofs.RingMap
import Verif.Proofs.KernelWf
import Verif.Proofs.Kernel
import Verif.Proofs.Mem
import Verif.Model.Ring
import Verif.Model.Darwin
import Verif.Proofs.Darwin
import Verif.Proofs.Ports
import Verif.Spec.Ports
import Verif.Model.Error
import Verif.Props.Size
import Verif.Model.WindowsMap
import Verif.Spec.WinWorld
import Verif.Spec.WinStore
import Verif.Spec.WinCalls
import Verif.Proofs.WinWorld
import Verif.Proofs.WinWorldStep
import Verif.Props.WinWorld
import Verif.Props.WinStore
import Verif.Props.WinCalls
import Verif.Props.TooBig
import Verif.Spec.WinBytes
import Verif.Spec.WinQueue
import Verif.Spec.WinJob
import Verif.Proofs.WinBytes
import Verif.Proofs.WinCalls
import Verif.Proofs.WinJob
import Verif.Props.WinBytes
import Verif.Proofs.WinQueue
import Verif.Props.WinQueue
import Verif.Props.WinJob
import Verif.Proofs.Copy
import Verif.Props.Copy
import Verif.Spec.Copy
import Verif.Props.FromPtr
import Verif.Model.RingJob
import Verif.Spec.Threads
import Verif.Proofs.Threads
import Verif.Props.Threads
import Verif.Model.MapJob
import Verif.Spec.Race
import Verif.Proofs.Race
import Verif.Props.Race
import Verif.Model.Fork
import Verif.Spec.Fork
import Verif.Spec.ForkRing
import Verif.Proofs.Fork
import Verif.Props.Fork
import Verif.Proofs.ForkRing
import Verif.Props.ForkRing
import Verif.Spec.Settings
import Verif.Proofs.Settings
import Verif.Props.Settings
import Verif.Spec.Ledger
import Verif.Proofs.Ledger
import Verif.Props.Ledger
import Verif.Model.Lines
import Verif.Spec.Lines
import Verif.Proofs.Lines
import Verif.Props.Lines
import Verif.Model.Bytes
import Verif.Spec.Bytes
import Verif.Proofs.Bytes
import Verif.Props.Bytes
import Verif.Spec.Works
import Verif.Proofs.Works
import Verif.Proofs.WorksWin
import Verif.Props.Works
import Verif.Props.Delivered
import Verif.Model.MachFork
import Verif.Spec.MachFork
import Verif.Proofs.MachFork
import Verif.Props.MachFork
import Verif.Spec.ForkBuf
import Verif.Proofs.ForkBuf
import Verif.Props.ForkBuf
import Verif.Spec.Calls
import Verif.Proofs.Calls
import Verif.Props.Calls
import Verif.Props.Darwin
import Verif.Model.WinBuffer
import Verif.Spec.WinBuffer
import Verif.Proofs.WinBuffer
import Verif.Props.WinBuffer
import Verif.Spec.WinSettings
import Verif.Proofs.WinSettings
import Verif.Props.WinSettings
import Verif.Model.WinMapJob
import Verif.Spec.WinMapJob
import Verif.Proofs.WinMapJob
import Verif.Props.WinMapJob
import Verif.Model.MachJob
import Verif.Spec.MachJob
import Verif.Proofs.MachJob
import Verif.Props.MachJob
import Verif.Model.ShmJob
import Verif.Spec.ShmJob
import Verif.Proofs.ShmJob
import Verif.Props.ShmJob
import Verif.Model.MachShort
import Verif.Proofs.MachShort
import Verif.Props.MachShort
import Verif.Spec.UnixQueue
import Verif.Proofs.UnixQueue
import Verif.Props.UnixQueue
import Verif.Model.Doc
import Verif.Spec.Doc
import Verif.Proofs.Doc
import Verif.Props.Doc
import Verif.Props.DocBuf
import Verif.Props.Same
import Verif.Props.DocMap
import Verif.Props.DocMapSys
import Verif.Model.WinFile
import Verif.Spec.WinFile
import Verif.Proofs.WinFile
import Verif.Props.WinFile
import Verif.Props.WinDisk
import Verif.Model.WinDocMap
import Verif.Spec.WinDocMap
import Verif.Proofs.WinDocMap
import Verif.Props.WinDocMap
import Verif.Spec.WinWorks
import Verif.Proofs.WinWorks
import Verif.Proofs.WinDocSys
import Verif.Props.WinWorks
import Verif.Props.WinDocSys
import Verif.Model.WinDoc
import Verif.Spec.WinDoc
import Verif.Proofs.WinDoc
import Verif.Props.WinDoc
import Verif.Model.RingTests
import Verif.Spec.RingTests
import Verif.Proofs.RingTests
import Verif.Props.RingTests
import Verif.Model.MapTests
import Verif.Proofs.MapTests
import Verif.Props.MapTests
import Verif.Model.WinSpan
import Verif.Model.WinMapTests
import Verif.Proofs.WinMapTests
import Verif.Props.WinMapTests
import Verif.Spec.WinSpan
import Verif.Proofs.WinSpan
import Verif.Props.WinSpan
import Verif.Props.WinGuard
import Verif.Model.RingCopy
import Verif.Spec.RingCopy
import Verif.Proofs.RingCopy
import Verif.Props.RingCopy
import Verif.Model.RingAdapt
import Verif.Spec.RingAdapt
import Verif.Proofs.RingAdapt
import Verif.Props.RingAdapt
import Verif.Model.BufCopy
import Verif.Model.BufCopyInf
import Verif.Model.BufAdapt
import Verif.Spec.BufCopy
import Verif.Proofs.BufCopy
import Verif.Proofs.BufCopyInf
import Verif.Proofs.BufAdapt
import Verif.Props.BufCopy
import Verif.Props.BufCopyInf
import Verif.Props.BufAdapt
import Verif.Spec.Arrives
import Verif.Proofs.Arrives
import Verif.Props.Arrives
import Verif.Proofs.CopyExact
import Verif.Props.CopyExact
import Verif.Proofs.CopyBoth
import Verif.Props.CopyBoth
import Verif.Model.BufChain
import Verif.Proofs.BufChain
import Verif.Props.BufChain
import Verif.Spec.WinCopy
import Verif.Proofs.WinCopy
import Verif.Props.WinCopy
import Verif.Proofs.WinStd
import Verif.Props.WinStd
import Verif.Spec.WinLines
import Verif.Proofs.WinLines
import Verif.Props.WinLines
import Verif.Proofs.WinChain
import Verif.Proofs.WinBufCopy
import Verif.Proofs.WinBufCopyInf
import Verif.Proofs.WinBufWrite
import Verif.Props.WinChain
import Verif.Props.WinBufCopy
import Verif.Props.WinBufCopyInf
import Verif.Props.WinBufWrite
