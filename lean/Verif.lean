import Verif.Props.Incidence
import Verif.Props.Exactness
import Verif.Props.Sides
import Verif.Props.Trace
import Verif.Props.Gathering
import Verif.Props.Sequent
import Verif.Props.Find
import Verif.Props.ChainCache
import Verif.Props.EWC
import Verif.Props.Assembly
import Verif.Props.StrongBC
import Verif.Props.Comm
import Verif.Props.Assemblers
import Verif.Props.GlobalLA
import Verif.Props.Stop
import Verif.Props.Krylov
import Verif.Props.Gmres
import Verif.Props.Schur
import Verif.Props.Mesh
import Verif.Props.Naive
import Verif.Props.Nodal
import Verif.Props.Distribution
import Verif.Props.Iterator
import Verif.Props.Freeze
import Verif.Props.Utils
import Verif.Props.Cochain
import Verif.Props.BC
import Verif.Props.Basis
import Verif.Props.Metric
import Verif.Props.Mass
import Verif.Props.Region
import Verif.Props.Marks
import Verif.Props.TriMesh
import Verif.Props.TriMap
import Verif.Props.TriNumbering
import Verif.Props.TriForms
import Verif.Props.TriCochains
import Verif.Props.TriCommute
import Verif.Props.Discretize2D
import Verif.Props.Discretize3D
import Verif.Props.SharedDofs
import Verif.Props.SharedDofsGlobal
import Verif.Props.Layout
import Verif.Props.SharedDofsMesh
import Verif.Props.Quadrature
import Verif.Props.CrossProduct
import Verif.Props.NonlinearSystem
import Verif.Props.ManufacturedSolutions
import Verif.Props.NumericalDerivative
import Verif.Props.Wrappers
import Verif.Props.Norms
import Verif.Props.Caches
import Verif.Props.SaveRead
import Verif.Props.Domain
import Verif.Props.Hybrid
import Verif.Props.HybridRank
import Verif.Props.EdgeEl
import Verif.Props.EdgeWalk
import Verif.Props.TraceNum
import Verif.Props.TraceRen
import Verif.Props.TraceLayout
import Verif.Props.NaiveChain
import Verif.Props.TraceNaive
import Verif.Props.TracePos
import Verif.Props.TraceDisc
import Verif.Props.TraceComp
import Verif.Props.TraceRec
import Verif.Props.TraceMass
import Verif.Props.TraceMark
import Verif.Props.TraceError
import Verif.Props.BoundaryInt
import Verif.Props.BoundaryNormal
import Verif.Props.HybridPairing
import Verif.Props.BlockSystem
import Verif.Props.TopoConn
import Verif.Props.DualForm
import Verif.Props.DualMoments
import Verif.Props.Vortex
import Verif.Props.VortexCriteria
import Verif.Props.TriVtk
import Verif.Props.TriRec
import Verif.Props.TriRecCont
import Verif.Props.TriRecCalc
import Verif.Props.TriMass
import Verif.Props.TriMassExact
import Verif.Props.TriMassPos
import Verif.Props.TriMassInt
import Verif.Props.TriMassCache
import Verif.Props.TriEnergy
import Verif.Props.TriEnergyInner
import Verif.Props.TriEnergyFails
import Verif.Props.TriTriple
import Verif.Props.TriError
import Verif.Props.Fields2
import Verif.Props.FieldsTest
import Verif.Props.FormVector
import Verif.Props.FormVector2
import Verif.Props.FormVector3
import Verif.Props.Solver
import Verif.Props.Monitor
import Verif.Props.Monitor2
import Verif.Props.FormOps
import Verif.Props.FormOps2
import Verif.Props.FormOps3
import Verif.Props.CellShape
import Verif.Props.Plates
import Verif.Props.Plates2
import Verif.Props.Piecewise
import Verif.Props.Accepts
import Verif.Props.Attached
import Verif.Props.NodeSOS
import Verif.Props.Portion
import Verif.Props.ValueCache
import Verif.Props.IrChain
import Verif.Props.VtkGrid
import Verif.Props.Locks
import Verif.Props.FieldFile
import Verif.Props.PairCheck
import Verif.Props.MeshSlice
import Verif.Props.Simplify
import Verif.Props.FileName
import Verif.Props.TriSquare
import Verif.Props.BoundaryReg
import Verif.Props.EdgePlot
import Verif.Props.LineCut
