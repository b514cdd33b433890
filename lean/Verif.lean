import Verif.Props.Dwt
import Verif.Props.Multi
import Verif.Props.Swt
import Verif.Props.MultiDim
import Verif.Props.MultilevelN
import Verif.Props.Shapes
import Verif.Props.Pack
import Verif.Props.Ravel
import Verif.Props.AxisMulti
import Verif.Props.Fs
import Verif.Props.Mra
import Verif.Props.Threshold
import Verif.Props.Packet
import Verif.Props.Bank
import Verif.Props.Objects
import Verif.Props.Builtin
import Verif.Props.Cwt
import Verif.Props.Pad
import Verif.Props.PadN
import Verif.Props.Reject
import Verif.Props.SwtN
import Verif.Props.PacketEdit
import Verif.Spec.RecN
import Verif.Proof.RecN
import Verif.Proof.ArrMap
import Verif.Model.MraN
import Verif.Proof.MraN
import Verif.Proof.MraNTop
import Verif.Props.MraN
import Verif.Props.LinN
import Verif.Model.ContWave
import Verif.Spec.ContWave
import Verif.Proof.Gauss
import Verif.Proof.ContWave
import Verif.Proof.ContNames
import Verif.Props.ContWave
import Verif.Spec.DwtIdwt
import Verif.Proof.Biorth
import Verif.Proof.DwtIdwt
import Verif.Proof.DwtIdwtN
import Verif.Proof.EnergyN
import Verif.Props.DwtIdwt
import Verif.Model.Wavefun
import Verif.Spec.Wavefun
import Verif.Proof.Wavefun
import Verif.Proof.WavefunRun
import Verif.Proof.WavefunProps
import Verif.Proof.CentralFreq
import Verif.Props.Wavefun
import Verif.Props.CentralFreq
import Verif.Spec.Moments
import Verif.Proof.Moments
import Verif.Proof.Moments2
import Verif.Proof.MomentsTable
import Verif.Proof.Local
import Verif.Props.Moments
import Verif.Spec.Threads
import Verif.Model.Heap
import Verif.Model.HeapConv
import Verif.Model.HeapWt
import Verif.Model.HeapNames
import Verif.Spec.Heap
import Verif.Proof.HeapSim
import Verif.Proof.HeapSim2
import Verif.Proof.HeapWt
import Verif.Proof.HeapCalls
import Verif.Proof.HeapCalls1
import Verif.Proof.HeapAxis
import Verif.Proof.HeapAxis2
import Verif.Proof.HeapAxis3
import Verif.Proof.HeapAxis4
import Verif.Proof.HeapAxis5
import Verif.Proof.HeapThreads
import Verif.Proof.HeapScript
import Verif.Proof.HeapAlloc
import Verif.Proof.HeapAlloc2
import Verif.Proof.HeapAlloc3
import Verif.Props.Threads
import Verif.Props.Alloc
import Verif.Model.Float
import Verif.Spec.Float
import Verif.Proof.Sim
import Verif.Proof.SimUp
import Verif.Proof.Near
import Verif.Proof.SimPy
import Verif.Proof.Rounding
import Verif.Proof.RoundTrip
import Verif.Proof.Ieee
import Verif.Proof.SimHom
import Verif.Proof.BuiltinNorm
import Verif.Proof.FloatTop
import Verif.Props.Float
import Verif.Model.DType
import Verif.Spec.DType
import Verif.Proof.DType1
import Verif.Proof.DType2
import Verif.Proof.DType3
import Verif.Props.DType
import Verif.Spec.Edit
import Verif.Proof.Edit
import Verif.Proof.EditN
import Verif.Proof.Stable
import Verif.Props.Edit
import Verif.Spec.Spin
import Verif.Proof.Spin
import Verif.Props.Spin
import Verif.Spec.NearOrth
import Verif.Proof.NearOrth
import Verif.Props.NearOrth
import Verif.Spec.FloatSwt
import Verif.Proof.FloatSwt
import Verif.Proof.SimSwt
import Verif.Proof.FloatIswt
import Verif.Proof.SwtRoundTrip
import Verif.Proof.FloatSwtTop
import Verif.Props.FloatSwt
import Verif.Spec.FloatN
import Verif.Proof.SimAxis
import Verif.Proof.SimN
import Verif.Proof.SimN2
import Verif.Proof.FloatN
import Verif.Proof.WithinN
import Verif.Proof.WithinLevels
import Verif.Proof.FloatNTop
import Verif.Props.FloatN
import Verif.Model.Data
import Verif.Spec.Data
import Verif.Proof.IeeeEval
import Verif.Proof.Data
import Verif.Props.Data
import Verif.Props.PacketEnergy
import Verif.Props.Adjoint
import Verif.Props.Shrink
import Verif.Props.EdgeFree
import Verif.Props.SwtAdjoint
import Verif.Props.NormWarn
import Verif.Props.Variance
import Verif.Props.NormWarnN
import Verif.Props.SwtNAdjoint
import Verif.Props.NearStages
import Verif.Props.PacketNear
import Verif.Props.RecNear
import Verif.Props.Rec2
import Verif.Props.Roll
import Verif.Props.RollN
import Verif.Props.Mirror
import Verif.Props.Transpose
import Verif.Props.SwtRoll
import Verif.Props.SwtTranspose
import Verif.Props.RecTranspose
import Verif.Props.RecRoll
import Verif.Props.Swt2Move
import Verif.Props.PacketMove
import Verif.Props.Rec2Move
