import Verif.Basic
import Verif.Units
import Verif.RTL
import Verif.L1
import Verif.UnitLemmas
import Verif.SimBase
import Verif.SimPhase
import Verif.SimStep
import Verif.SimReq
import Verif.SimEnter
import Verif.SimFlow
import Verif.SimReqStep
import Verif.SimMiss
import Verif.SimWait
import Verif.SimAns
import Verif.SimInv
import Verif.SimFlush
import Verif.SimMain
import Verif.Spec
import Verif.Mem
import Verif.Eqv
import Verif.Phases
import Verif.Sys
import Verif.ESys
import Verif.Log
import Verif.Bytes
import Verif.SubWord
import Verif.Coh
import Verif.Op
import Verif.Exec
import Verif.Trace
import Verif.Segs
import Verif.PropsSingle
import Verif.Uniq
import Verif.Blocking
import Verif.PropsBlocking
import Verif.SpecLru
import Verif.PerCache
import Verif.Lru
import Verif.PropsLru
import Verif.FL
import Verif.FLTrack
import Verif.PropsFL
import Verif.Addr
import Verif.PropsFL2
import Verif.SpecShared
import Verif.Word
import Verif.Fin
import Verif.Drf
import Verif.Drf2
import Verif.DriveK
import Verif.PropsShared
import Verif.SpecSeg
import Verif.Life
import Verif.PropsLife
import Verif.SpecDirty
import Verif.Dirty
import Verif.PropsDirty
import Verif.SpecAmo
import Verif.PropsAmo
import Verif.SpecUnits
import Verif.PropsUnits
import Verif.Mux
import Verif.Derived
import Verif.MemCL
import Verif.ProcModel
import Verif.ProcLoop
import Verif.Defects
import Verif.Multicore
import Verif.Live
import Verif.PropsLive
import Verif.SpecShared2
import Verif.Drop
import Verif.Drf3
import Verif.Drf4
import Verif.PropsShared2
import Verif.SpecDet
import Verif.Det
import Verif.PropsDet
import Verif.MultiTests
import Verif.PropsTag
import Verif.PropsSeq
import Verif.SingleTests
import Verif.MLive
import Verif.PropsMLive
import Verif.PropsCounter
import Verif.ProcFair
import Verif.RandGen
import Verif.Sched
import Verif.NetUnits
import Verif.Net
import Verif.NetSched
import Verif.NetUnitsEq
import Verif.NetEnc
import Verif.NetSim
import Verif.NetVals
import Verif.PropsNet
import Verif.NetSys
import Verif.PropsNetSys
import Verif.Isolate
import Verif.PropsIsolate
import Verif.SpecImpl
import Verif.Impl
import Verif.ImplOp
import Verif.PropsImpl
import Verif.Crash
import Verif.PropsCrash
import Verif.InitSys
import Verif.InitRefine
import Verif.InitIso
import Verif.PropsInit
import Verif.InitWarm
import Verif.InitTests
import Verif.Reset
import Verif.PropsReset
import Verif.SpecTiming
import Verif.Timing
import Verif.PropsTiming
import Verif.PropsTiming2
import Verif.TimingMaint
import Verif.PropsTiming3
import Verif.ExTiming
import Verif.SpecTraffic
import Verif.PropsTraffic
import Verif.ExTraffic
import Verif.SpecModel
import Verif.Hetero
import Verif.WArr
import Verif.WSim
import Verif.PropsModel
import Verif.HetLemmas
import Verif.ExModel
import Verif.SpecDisc
import Verif.WTrace
import Verif.WDisc
import Verif.PropsDisc
import Verif.ExDisc
import Verif.SpecLin
import Verif.PropsLin
import Verif.SpecLock
import Verif.PropsLock
import Verif.ExLock
import Verif.SramAny
import Verif.SramSim
import Verif.PropsSram
import Verif.PropsSramLive
import Verif.ExSram
import Verif.SpecMsg
import Verif.Calm
import Verif.MsgSim
import Verif.MsgStep
import Verif.Boot
import Verif.PropsMsg
import Verif.ExMsg
import Verif.SpecData
import Verif.PropsData
import Verif.PropsDataSys
import Verif.ExData
import Verif.SpecTime
import Verif.Time
import Verif.PropsTime
import Verif.ExTime
import Verif.FLBank
import Verif.MsgFmt
import Verif.SpecConf
import Verif.PropsConf
import Verif.ExConf
import Verif.LineTrace
import Verif.PropsWave
import Verif.ExWave
import Verif.Translate
import Verif.PropsCoh
import Verif.ExCoh
import Verif.PropsAir
import Verif.WEff
import Verif.PropsPass
import Verif.ExPass
import Verif.HetNet
import Verif.PropsHetNet
import Verif.HetWave
import Verif.ExHetWave
import Verif.ResetSys
import Verif.SpecReset
import Verif.ResetSim
import Verif.ResetModel
import Verif.ResetLife
import Verif.PropsResetSys
import Verif.ExResetSys
import Verif.ResetNet
import Verif.PropsResetNet
import Verif.ResetWave
import Verif.PropsResetWave
import Verif.PropsResetInf
import Verif.ExResetInf
import Verif.SpecEnv
import Verif.SpecEnvNet
import Verif.Env
import Verif.PropsEnv
import Verif.EnvNet
import Verif.ExEnv
import Verif.SpecFence
import Verif.Fence
import Verif.ExFence
import Verif.SpecMemPorts
import Verif.MemPorts
import Verif.ExMemPorts
import Verif.UnitTests
import Verif.SpecBarrier
import Verif.PropsBarrier
import Verif.BarrierNet
import Verif.ExBarrier
import Verif.SpecLockLive
import Verif.PropsLockLive
import Verif.LockLive
import Verif.ExLockLive
import Verif.SpecTicket
import Verif.PropsTicket
import Verif.TicketLive
import Verif.ExTicket
import Verif.SpecTicketData
import Verif.PropsTicketData
import Verif.ExTicketData
import Verif.SpecReduce
import Verif.PropsReduce
import Verif.ExReduce
import Verif.FirstCome
