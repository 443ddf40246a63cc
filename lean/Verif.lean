import Verif.Props.AxisPacket
import Verif.Props.BufferState
import Verif.Props.AxisSlave
import Verif.Props.AxisMaster
import Verif.Props.AxiMm
import Verif.Props.InterRad
import Verif.Props.Portal
import Verif.Props.DesignContext
import Verif.Props.Telemetry
import Verif.Props.Config
import Verif.Props.Cluster
import Verif.Props.MemAddr
import Verif.Props.MemCtrl
import Verif.Props.Routing
import Verif.Props.CMesh
import Verif.Props.Arbiter
import Verif.Props.Alloc
import Verif.Props.Channel
import Verif.Props.Router
import Verif.Props.RouterTime
import Verif.Props.ConfigGen
import Verif.Props.Network
import Verif.Props.Mesh
import Verif.Props.NetworkLive
import Verif.Props.MeshLive
import Verif.Props.Torus
import Verif.Props.DramChan
import Verif.Props.DramCtrl
import Verif.Props.DramRefresh
import Verif.Props.AxiMmSink
import Verif.Props.MeshOrder
import Verif.Props.AxisNoc
import Verif.Props.AxisNocLive
import Verif.Props.AxisNocLost
import Verif.Props.AxisNocSteady
import Verif.Props.AddDesign
import Verif.Props.Mvm
import Verif.Props.Mlp
import Verif.Props.MlpDesign
import Verif.Props.MlpMesh
import Verif.Props.MlpEnd
import Verif.Props.MmNoc
import Verif.Props.MmNocLive
import Verif.Props.AximmDesign
import Verif.Props.AximmEnd
import Verif.Props.DlrmFi
import Verif.Props.DlrmLookup
import Verif.Props.DlrmCompile
import Verif.Props.DlrmEnd
import Verif.Props.DlrmAlloc
import Verif.Props.DlrmSink
import Verif.Props.Int8Mvm
import Verif.Props.Int8Net
import Verif.Props.NpuInst
import Verif.Props.NpuDecode
import Verif.Props.NpuAccum
import Verif.Props.NpuRegFile
import Verif.Props.NpuPath
import Verif.Props.NpuThreads
import Verif.Props.NpuAxis
import Verif.Props.NpuVew
import Verif.Props.NpuLoader
import Verif.Props.NpuDispatch
import Verif.Props.NpuWriteBack
import Verif.Props.NpuChain
import Verif.Props.MinAdapt
import Verif.Props.TwoPhase
import Verif.Props.NiMesh
import Verif.Props.TorusMore
import Verif.Props.RommNi
import Verif.Props.Fly
import Verif.Props.FatTree
import Verif.Props.NpuOfifo
import Verif.Props.AdaptTorus
import Verif.Props.Tree4
import Verif.Props.QTree
