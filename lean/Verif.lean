import Verif.Common
import Verif.Stats.Model
import Verif.Stats.Spec
import Verif.Stats.Lemmas
import Verif.Stats.Props
import Verif.DDDA.Model
import Verif.DDDA.Spec
import Verif.DDDA.Lemmas
import Verif.DDDA.Props
import Verif.DDDA.Props2
import Verif.DDDA.Overflow
import Verif.DDDA.Optimal
import Verif.Autocorrelation.Model
import Verif.Autocorrelation.Props
import Verif.Collection.Model
import Verif.Collection.Props
import Verif.Collection.Plot
import Verif.Vec.Basic
import Verif.Vec.Model
import Verif.Vec.Props
import Verif.Atomic.Model
import Verif.Atomic.Props
import Verif.Collide.Cells
import Verif.Collide.CellProps
import Verif.Collide.Model
import Verif.Collide.Lemmas
import Verif.Collide.Props
import Verif.Collide.Host
import Verif.Launch.Model
import Verif.Launch.Props
import Verif.Memory.Model
import Verif.Memory.Props
import Verif.Memory.Simulation
import Verif.Runs.Paths
import Verif.Runs.Model
import Verif.Runs.NodeProps
import Verif.Runs.Props
import Verif.Runs.JobProps
import Verif.Runs.Target
import Verif.Runs.Selection
import Verif.Runs.Status
import Verif.Cache.Model
import Verif.Cache.Props
import Verif.Cache.Quantity
import Verif.Plot.Ranges
import Verif.Plot.Interactive
import Verif.Plot.Controls
import Verif.Plot.Plotfiles
import Verif.Plot.Merge
import Verif.Plot.Dashed
import Verif.Particles.Model
import Verif.Particles.Props
import Verif.Particles.Eckart
import Verif.Particles.EckartProps
import Verif.Particles.Rigid
import Verif.Particles.Orientation
import Verif.Particles.TensorRow
import Verif.Particles.OrientRounded
import Verif.Star.Model
import Verif.Star.Numbering
import Verif.Star.Clusters
import Verif.Snapshot.Structure
import Verif.Star.Snapshot
import Verif.Snapshot.File
import Verif.Snapshot.Python
import Verif.Snapshot.RoundTrip
import Verif.Snapshot.Truncated
import Verif.Snapshot.Cut
import Verif.Star.State
import Verif.Star.Mirror
import Verif.Potentials.Model
import Verif.Potentials.Props
import Verif.Verlet.Model
import Verif.Verlet.Props
import Verif.Verlet.Energy
import Verif.Verlet.Waves
import Verif.Verlet.Angular
import Verif.Star.Angular
import Verif.Star.Settings
import Verif.Sim.Measurements
import Verif.Collide.Angular
import Verif.Verlet.Analytic
import Verif.Star.Forces
import Verif.Star.Rounded
import Verif.Star.Energy
import Verif.Config.Model
import Verif.Config.Props
import Verif.Config.Equiv
import Verif.Config.Cpp
import Verif.Config.Create
import Verif.Config.Canonical
import Verif.Profile.Histogram
import Verif.Profile.HistRounded
import Verif.Profile.Flow
import Verif.Profile.FlowFile
import Verif.Profile.DensityFile
import Verif.Profile.Measure
import Verif.Random.Lcg
import Verif.Util.Ranges
import Verif.Util.StridedIterators
import Verif.Util.Bitset
import Verif.Instr.Ring
import Verif.Instr.Msd
import Verif.Instr.NormalMode
import Verif.Instr.VelAuto
import Verif.Instr.Reduction
import Verif.Sim.Generators
import Verif.Sim.Main
import Verif.Sim.Rundir
import Verif.Sim.StarSave
import Verif.Analysis.Text
import Verif.Analysis.Msd
import Verif.Analysis.NormalMode
import Verif.Analysis.VelAuto
import Verif.Analysis.Pairs
import Verif.Analysis.StarTimes
import Verif.Analysis.Analytic
import Verif.Analysis.Data2D
import Verif.Analysis.Data2DStats
import Verif.Analysis.Fit
import Verif.Fluid.Init
import Verif.Fluid.Bonds
import Verif.Fluid.Dumbbell
import Verif.Instr.Fourier
import Verif.Instr.CenterVelocity
import Verif.Instr.Access
import Verif.Analysis.Transverse
import Verif.Analysis.Relax
import Verif.Analysis.DumbbellPlots
import Verif.Analysis.AlignmentPlot
import Verif.Analysis.TransversePy
import Verif.Analysis.Viscosity
import Verif.Random.Gamma
import Verif.Random.Thermostat
import Verif.Random.UnitVector
import Verif.Random.GridShift
import Verif.Random.Phase
import Verif.Random.Liouville
import Verif.Random.Rescale
import Verif.Random.Maxwell
import Verif.Random.Equilibrium
import Verif.Collide.Symmetry
import Verif.Random.Reversal
import Verif.Sim.Startup
import Verif.Sim.Several
import Verif.Util.Mpi
import Verif.Util.Version
import Verif.Random.Speed
import Verif.Fluid.Mirror
import Verif.Star.Initial
import Verif.Profile.FlowPlot
import Verif.Vec.Remote
import Verif.Vec.Objects
import Verif.Vec.ComplexObjects
import Verif.Vec.Plane
import Verif.Sim.Status
import Verif.Util.Decimal
import Verif.Collide.Rounded
import Verif.Collide.Drift
import Verif.DDDA.Cpp
import Verif.Stats.Unbiased
import Verif.Stats.Rounded
import Verif.Sim.Time
import Verif.Memory.Contents
import Verif.Analysis.Tables
import Verif.Analysis.Overview
import Verif.DDDA.Estimates
import Verif.Config.ParameterFile
import Verif.Analysis.DataFile
import Verif.Config.Consistent
import Verif.Sim.Metadata
import Verif.Analysis.StaticData
import Verif.Analysis.Registry
import Verif.Analysis.XYPlot
import Verif.Stats.DeviceMean
