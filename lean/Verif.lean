import Verif.Index.Props
import Verif.Iter.Props
import Verif.Ghost.Props
import Verif.Geometry.Props
import Verif.Mask.Props
import Verif.Pool.Props
import Verif.Ptr.Props
import Verif.Field.Props
import Verif.Threads.Props
import Verif.Sync.Props
import Verif.Nebo.Props
import Verif.NeboPar.Props
import Verif.NeboGpu.Props
import Verif.NeboRed.Props
import Verif.NeboCond.Props
import Verif.OpDb.Props
import Verif.Stencil.Props
import Verif.Grid.Props
import Verif.Bc.Props
import Verif.Lagrange.Props
import Verif.Particle.Props
import Verif.Compare.Props
import Verif.Point.Props
import Verif.Func.Props
import Verif.NeboOps.Props
import Verif.DevPool.Props
import Verif.MaskMem.Props
import Verif.CudaPtr.Props
import Verif.FieldMem.Props
import Verif.Shutdown.Props
import Verif.TimedWait.Props
import Verif.Conserve.Props
import Verif.StoreMT.Props
import Verif.PtrMT.Props
import Verif.Chain.Props
import Verif.Mach.Props
import Verif.Flat.Props
import Verif.Heat.Props
import Verif.Fork.Props
import Verif.Concur.Props
import Verif.Loops.Props
import Verif.Round.Props
import Verif.Matlab.Props
import Verif.Accuracy.Props
import Verif.LagrangeErr.Props
import Verif.Prog.Props
import Verif.Adapt.Props
import Verif.Study.Props
import Verif.HeatErr.Props
import Verif.FloatErr.Props
import Verif.GpuTest.Props
import Verif.DevMem.Props
import Verif.HeatPar.Props
import Verif.GpuKern.VecProps
import Verif.MaskView.Props
import Verif.Views.Props
import Verif.Script.Props
import Verif.Solve.Props
import Verif.First.Props
import Verif.Release.Props
import Verif.Release.ToolsProps
import Verif.Streams.Props
import Verif.RelPar.Props
import Verif.Meshes.Props
import Verif.March.Props
import Verif.BoxFilter.Props
import Verif.BoxFilter.Accuracy
import Verif.HeatRound.Props
import Verif.MarchPar.Props
import Verif.BcRound.Props
import Verif.ParticleRound.Props
import Verif.LagrangeRound.Props
import Verif.LagrangeRound.Total
import Verif.Range.Props
import Verif.Range.Programs
import Verif.Whole.Props
import Verif.Rewrite.Props
import Verif.Rewrite.Programs
import Verif.Order.Operators
import Verif.Order.Programs
import Verif.Order.Props
import Verif.Near.Props
