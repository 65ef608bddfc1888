import Verif.AM.Model
import Verif.AM.Props
import Verif.Ana.Deriv
import Verif.Ana.DerivProps
import Verif.Ana.GaussLemmas
import Verif.Ana.Lemmas
import Verif.Ana.Model
import Verif.Ana.Order
import Verif.Ana.OrderProps
import Verif.Ana.Props
import Verif.Ana.StructFactor
import Verif.Ana.StructFactorProps
import Verif.Ana.Traj
import Verif.Ana.TrajProps
import Verif.Basic
import Verif.Basis.CompleteLemmas
import Verif.Basis.CompleteProps
import Verif.Basis.Convert
import Verif.Basis.Convert2
import Verif.Basis.ExchangeLemmas
import Verif.Basis.ExchangeProps
import Verif.Basis.FileProps
import Verif.Basis.Lemmas
import Verif.Basis.MakeCell
import Verif.Basis.MakeLemmas
import Verif.Basis.MakeModel
import Verif.Basis.MakeProps
import Verif.Basis.MakeSucceed
import Verif.Basis.Model
import Verif.Basis.ParsevalLemmas
import Verif.Basis.ParsevalProps
import Verif.Basis.Props
import Verif.Basis.Sound
import Verif.Basis.Spec
import Verif.Basis.StarLemmas
import Verif.Basis.StarModel
import Verif.Basis.StarNorm
import Verif.Basis.StarNormProps
import Verif.Basis.StarProps
import Verif.Basis.SymmetryProps
import Verif.Chem.Debye
import Verif.Chem.DebyeProps
import Verif.Chem.Graph
import Verif.Chem.Iter
import Verif.Chem.Lemmas
import Verif.Chem.Model
import Verif.Chem.Paths
import Verif.Chem.Props
import Verif.Chem.Runtime
import Verif.Chem.RuntimeProps
import Verif.Crystal.CellDerivProps
import Verif.Crystal.CellModel
import Verif.Crystal.CellProps
import Verif.Crystal.GroupLemmas
import Verif.Crystal.GroupProps
import Verif.Crystal.MinImage
import Verif.Crystal.MinImageProps
import Verif.Crystal.SymLemmas
import Verif.Crystal.SymModel
import Verif.Crystal.SymProps
import Verif.Crystal.WaveListModel
import Verif.Crystal.WaveListProps
import Verif.Cuda.ConfigLemmas
import Verif.Cuda.DeviceArray
import Verif.Cuda.DeviceArrayModel
import Verif.Cuda.DeviceArrayProps
import Verif.Cuda.Gpu
import Verif.Cuda.GpuLemmas
import Verif.Cuda.LoopLemmas
import Verif.Cuda.Reduce
import Verif.Cuda.ReduceLemmas
import Verif.Cuda.ReduceProps
import Verif.Cuda.ThreadArray
import Verif.Cuda.ThreadMesh
import Verif.Cuda.ThreadMeshLemmas
import Verif.Cuda.ThreadMeshProps
import Verif.Cuda.VecOp
import Verif.Cuda.VecOpLemmas
import Verif.Cuda.VecOpProps
import Verif.Cuda.WaveListKernel
import Verif.Cuda.WaveListLemmas
import Verif.Cuda.WaveListProps
import Verif.Cx
import Verif.Field.Convert
import Verif.Field.ConvertProps
import Verif.Field.HostModel
import Verif.Field.HostProps
import Verif.Field.Model
import Verif.Field.Props
import Verif.FieldIo.Lemmas
import Verif.FieldIo.Model
import Verif.FieldIo.Props
import Verif.Film.EnvProps
import Verif.Film.LatticeProps
import Verif.Film.Model
import Verif.Film.Props
import Verif.FloryHuggins.Model
import Verif.FloryHuggins.Props
import Verif.Fts.BalanceProps
import Verif.Fts.BdLemmas
import Verif.Fts.BdModel
import Verif.Fts.BdProps
import Verif.Fts.Compress
import Verif.Fts.CompressProps
import Verif.Fts.Eigen
import Verif.Fts.EigenLemmas
import Verif.Fts.EigenProps
import Verif.Fts.MeanFieldProps
import Verif.Fts.Model
import Verif.Fts.PerturbProps
import Verif.Fts.Props
import Verif.Fts.SimProps
import Verif.Fts.Stationary
import Verif.Fts.StationaryProps
import Verif.Inter.Model
import Verif.Inter.Props
import Verif.Loop
import Verif.Math.CompareLemmas
import Verif.Math.CompareModel
import Verif.Math.CompareProps
import Verif.Math.Reduce
import Verif.Math.ReduceProps
import Verif.Math.Tridiag
import Verif.Math.TridiagProps
import Verif.Mesh.Lemmas
import Verif.Mesh.Model
import Verif.Mesh.Props
import Verif.R1d.Files
import Verif.R1d.FilesProps
import Verif.R1d.Iter
import Verif.R1d.IterProps
import Verif.R1d.Lemmas
import Verif.R1d.Model
import Verif.R1d.Props
import Verif.R1d.Thermo
import Verif.R1d.ThermoProps
import Verif.R1d.Uniform
import Verif.Rpg.Block
import Verif.Rpg.BlockProps
import Verif.Rpg.FftLemmas
import Verif.Rpg.LayoutLemmas
import Verif.Rpg.OpLemmas
import Verif.Rpg.PolymerLemmas
import Verif.Rpg.PropLemmas
import Verif.Rpg.StepLemmas
import Verif.Rpg.SumLemmas
import Verif.Scft.Lemmas
import Verif.Scft.MixtureProps
import Verif.Scft.Model
import Verif.Scft.Props
import Verif.Script.Model
import Verif.Script.Props
import Verif.Solver.ContourProps
import Verif.Solver.ConvLemmas
import Verif.Solver.ConvProps
import Verif.Solver.Deriv
import Verif.Solver.DerivProps
import Verif.Solver.Dft
import Verif.Solver.DftProps
import Verif.Solver.EquivLemmas
import Verif.Solver.EquivMesh
import Verif.Solver.EquivProps
import Verif.Solver.ExactLemmas
import Verif.Solver.HomogProps
import Verif.Solver.Lemmas
import Verif.Solver.Mixture
import Verif.Solver.MixtureLemmas
import Verif.Solver.MixtureProps
import Verif.Solver.Model
import Verif.Solver.Props
import Verif.Solver.Shift
import Verif.Solver.ShiftProps
import Verif.Solver.SimpsonLemmas
import Verif.Solver.Stress
import Verif.Solver.StressLemmas
import Verif.Solver.ThreadDerivProps
import Verif.Sweep.Model
import Verif.Sweep.Param
import Verif.Sweep.ParamProps
import Verif.Sweep.Props
import Verif.Sweep.RunModel
import Verif.Sweep.RunProps
import Verif.System.Model
import Verif.System.Props
import Verif.Tac
import Verif.Text.HeaderProps
import Verif.Text.Model
import Verif.Text.Props
import Verif.Thermo.Model
import Verif.Thermo.Props
import Verif.Audit
