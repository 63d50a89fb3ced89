import Verif.Model
import Verif.Spec
import Verif.Inval
import Verif.Inv
import Verif.Eval
import Verif.EvalH
import Verif.Ops
import Verif.MutAccess
import Verif.Step
import Verif.Own
import Verif.Gc
import Verif.Trans
import Verif.LogFree
import Verif.Demo
import Verif.Props1
import Verif.Shape
import Verif.KnownDyn
import Verif.KnownDynH
import Verif.Props2
import Verif.HashIndep
import Verif.Props3
import Verif.Anatomy
import Verif.Stray
import Verif.Props4
import Verif.Props5
import Verif.Props6
import Verif.Run
import Verif.Dag
import Verif.Pure
import Verif.PureH
import Verif.Props7
import Verif.Preserve
import Verif.Utils
import Verif.Wrap
import Verif.Leaf
import Verif.Props8
import Verif.Redeem
import Verif.Props9
import Verif.DemoUtils
import Verif.Rc
import Verif.RcInv
import Verif.Bp
import Verif.BpInv
import Verif.Canning
import Verif.Props10
import Verif.Doctors
import Verif.Props11
import Verif.Sim
import Verif.SimStep
import Verif.Props12
import Verif.Props13
import Verif.Trace
import Verif.Contracts
import Verif.Props14
import Verif.Props15
import Verif.View
import Verif.ViewStep
import Verif.Props16
import Verif.Props17
import Verif.Props18
import Verif.Multi
import Verif.Props19
import Verif.Ideal
import Verif.Refine
import Verif.Props20
import Verif.Hooks
import Verif.Debug
import Verif.Props21
import Verif.MemLink
import Verif.Replay
import Verif.Props22
import Verif.Notebook
import Verif.Drops
import Verif.Writer
import Verif.WriterCache
import Verif.Levels
import Verif.Threads
import Verif.Props23
import Verif.Anyhow
import Verif.Props24
import Verif.Words
import Verif.Footprint
import Verif.Clones
import Verif.Props25
import Verif.RepoTests
import Verif.Props26
import Verif.Coherent
import Verif.Props27
import Verif.InternalTests
import Verif.Props28
import Verif.Work
import Verif.Props29
import Verif.Props30
import Verif.DocExamples
import Verif.Props31
import Verif.Quoting
import Verif.LogFreeH
import Verif.Props32
import Verif.Update
import Verif.Props33
import Verif.HookRuns
import Verif.Props34
import Verif.SimHooks
import Verif.Props35
import Verif.Props36
import Verif.Props37
import Verif.Props38
import Verif.Props39
import Verif.Props40
import Verif.Props41
import Verif.Props42
import Verif.Props43
import Verif.Props44
