import Verif.Phys.Calc
import Verif.Phys.Model
import Verif.Phys.Props
import Verif.Phys.Transport
import Verif.BC.Model
import Verif.BC.Props
import Verif.Flux.Model
import Verif.Flux.Basic
import Verif.Flux.Props
import Verif.Flux.Order
import Verif.Flux.Upwind
import Verif.Flux.Shock
import Verif.Flux.Rot
import Verif.Flux.Jac
import Verif.Flux.AusmKink
import Verif.Flux.HllcKink
import Verif.Flux.HllcSwitch
import Verif.Flux.RoeContact
import Verif.Flux.JacAvg
import Verif.Flux.JacHllc
import Verif.Mesh.Model
import Verif.Mesh.Esup
import Verif.Mesh.Esuel
import Verif.Mesh.Host
import Verif.Mesh.Faces
import Verif.Mesh.Conform
import Verif.Mesh.Geom
import Verif.Mesh.GeomTol
import Verif.Mesh.Renumber
import Verif.Mesh.Gmsh
import Verif.Mesh.Psup
import Verif.Mesh.Order
import Verif.Mesh.Part
import Verif.Mesh.Sub
import Verif.Mesh.Check
import Verif.Par.Transport
import Verif.Par.Trace
import Verif.Par.Partition
import Verif.FV.Assemble
import Verif.FV.Threads
import Verif.FV.Grad
import Verif.FV.Race
import Verif.FV.Recon
import Verif.FV.ReconMesh
import Verif.FV.Length
import Verif.FV.VenkBound
import Verif.FV.LinearField
import Verif.FV.Visc
import Verif.FV.Residual
import Verif.FV.Jacobian
import Verif.FV.Diffusion
import Verif.Ode.Ramp
import Verif.Ode.Steady
import Verif.Ode.History
import Verif.Ode.Rk
import Verif.Lin.Matrix
import Verif.Lin.Handles
import Verif.Ctl.Bcs
import Verif.Ctl.Options
import Verif.Ctl.Case
import Verif.Out.Nodal
import Verif.Out.Vtu
import Verif.Out.Surface
import Verif.Out.Array
import Verif.FV.CellForm
import Verif.FV.Copy
import Verif.FV.Copy2
import Verif.Par.Layout
import Verif.Par.Distributed
import Verif.Par.Renumber
import Verif.Par.RenumberRun
import Verif.Mesh.Levels
import Verif.Mesh.Compare
import Verif.BC.Effect
import Verif.FV.Heat
import Verif.Out.Entropy
import Verif.Flux.Mirror
import Verif.FV.CopyJac
import Verif.Par.Matrix
import Verif.Mesh.Su2
import Verif.Mesh.Bpoints
import Verif.Mesh.LineGraph
import Verif.FV.Closed
import Verif.FV.CopyStep
import Verif.FV.JacJoint
import Verif.FV.JacBoundary
import Verif.FV.JacSwitch
import Verif.FV.JacSwitchHllc
import Verif.FV.JacSwitchRoe
import Verif.FV.ApproxVisc
import Verif.FV.Similar
import Verif.FV.SimilarRes
import Verif.FV.SimilarRun
import Verif.FV.SimilarGrad
import Verif.FV.SimilarRecon
import Verif.FV.SimilarEx
import Verif.Par.Explicit
import Verif.Par.Unsteady
import Verif.Par.Construct
import Verif.Out.Files
import Verif.Out.VtuData
import Verif.Flux.Positive
import Verif.Par.Positive
import Verif.Par.Steady
import Verif.Par.Implicit
import Verif.Par.ImplicitRun
import Verif.Par.ImplicitNewton
import Verif.Par.SecondOrder
import Verif.FV.MusclBound
import Verif.Par.AtRest
import Verif.Par.WeakSteady
import Verif.Par.Upstream
import Verif.Par.UpstreamVisc
import Verif.Par.UpstreamSecond
import Verif.Par.UpstreamLayer
import Verif.Par.ImplicitInexact
import Verif.Par.ImplicitInexactPar
import Verif.Par.UpstreamCone
import Verif.Par.UpstreamJac
import Verif.Flux.Units
import Verif.FV.Units
import Verif.FV.UnitsRun
import Verif.FV.GradExact
import Verif.Flux.Reflect
import Verif.FV.Reflect
import Verif.FV.ReflectMesh
import Verif.FV.ReflectRun
import Verif.FV.ReflectEx
import Verif.FV.DiffMax
import Verif.FV.DiffMaxEx
import Verif.FV.DiffConv
import Verif.FV.DiffConvEx
import Verif.Flux.Chart
import Verif.Flux.ChartJac
import Verif.FV.ChartVisc
import Verif.FV.ChartBc
import Verif.Par.ChartSys
import Verif.Par.ChartRun
import Verif.Par.ChartInst
import Verif.Par.ChartEx
import Verif.FV.WenoFrames
import Verif.Par.ChartSecond
import Verif.Ctl.Monitor
import Verif.Lin.Precond
import Verif.Out.ArrayText
import Verif.Par.Case
import Verif.Par.CaseRuns
import Verif.Par.CasePos
import Verif.Flux.Carried
import Verif.Flux.Continuous
import Verif.Par.Carried
import Verif.Flux.Enthalpy
import Verif.Flux.Boost
import Verif.Ctl.PetscOpts
import Verif.Par.Enthalpy
import Verif.Par.Limit
import Verif.Par.Converge
import Verif.Par.Async
import Verif.Par.AsyncRun
import Verif.Par.AsyncHang
import Verif.Par.AsyncSecond
import Verif.Par.AsyncMissing
import Verif.Par.AsyncNb
import Verif.Par.Reduce
import Verif.Par.ConnCheck
import Verif.Out.Lift
import Verif.Cases.Bc
import Verif.Cases.Flux
import Verif.Cases.Mesh
import Verif.Cases.Out
import Verif.Cases.Phys
import Verif.Cases.Run
import Verif.Cases.Fv
import Verif.Cases.FvFlow
import Verif.Cases.FvRun
import Verif.Cases.Par
import Verif.Cases.ParRun
import Verif.Cases.Converge
import Verif.Life.Agree
import Verif.Mesh.HostFaces
import Verif.Out.ScalarOne
import Verif.Lin.Access
import Verif.Ctl.Letters
import Verif.Par.AsyncEarly
import Verif.Phys.GradT
import Verif.Par.MatrixFree
import Verif.Par.MatrixFree2
import Verif.Par.MatrixFree2Iff
import Verif.Flux.BoostIn
import Verif.Par.AtRestIso
import Verif.Par.AtRestIn
import Verif.Par.AtRestInAll
import Verif.BC.IsoRow
