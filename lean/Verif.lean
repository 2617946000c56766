import Verif.Basic
import Verif.Lemmas.Angle
import Verif.Lemmas.BiEnv
import Verif.Lemmas.Boundary
import Verif.Lemmas.Circle
import Verif.Lemmas.Constraint
import Verif.Lemmas.Crs
import Verif.Lemmas.Dense
import Verif.Lemmas.Det
import Verif.Lemmas.Dict
import Verif.Lemmas.Dig
import Verif.Lemmas.Element
import Verif.Lemmas.Envelope
import Verif.Lemmas.Factor
import Verif.Lemmas.Fuel
import Verif.Lemmas.Gauss
import Verif.Lemmas.Grammar
import Verif.Lemmas.Graph
import Verif.Lemmas.Inertia
import Verif.Lemmas.IsMat
import Verif.Lemmas.LU
import Verif.Lemmas.MatrixLike
import Verif.Lemmas.MeshFile
import Verif.Lemmas.Parse
import Verif.Lemmas.Perm
import Verif.Lemmas.Piece
import Verif.Lemmas.Ruppert
import Verif.Lemmas.Seidel
import Verif.Lemmas.Spd
import Verif.Lemmas.Split
import Verif.Lemmas.Star
import Verif.Lemmas.System
import Verif.Lemmas.Triangular
import Verif.Lemmas.Triangulation
import Verif.Lemmas.Vec
import Verif.Lemmas.Walk
import Verif.Model.Assemblage
import Verif.Model.Assoc
import Verif.Model.BoundFile
import Verif.Model.Boundary
import Verif.Model.Cli
import Verif.Model.Constraint
import Verif.Model.Dense
import Verif.Model.Direct
import Verif.Model.Eigen
import Verif.Model.Element
import Verif.Model.Files
import Verif.Model.Graph
import Verif.Model.Inverse
import Verif.Model.MatrixLike
import Verif.Model.MeshFile
import Verif.Model.Names
import Verif.Model.Parse
import Verif.Model.Permutation
import Verif.Model.Point
import Verif.Model.Predicates
import Verif.Model.Sparse
import Verif.Model.System
import Verif.Model.Triangulation
import Verif.Model.Vertex
import Verif.Model.Visual
import Verif.Props.Algebraic
import Verif.Props.Assemblage
import Verif.Props.BoundFile
import Verif.Props.Chain
import Verif.Props.Chew
import Verif.Props.Cli
import Verif.Props.Climb
import Verif.Props.Color
import Verif.Props.Complete
import Verif.Props.Constraint
import Verif.Props.Converge
import Verif.Props.Corner
import Verif.Props.Coupled
import Verif.Props.Decimal
import Verif.Props.Delaunay
import Verif.Props.Dense
import Verif.Props.Divide
import Verif.Props.Draw
import Verif.Props.Eigen
import Verif.Props.Element
import Verif.Props.Encroach
import Verif.Props.EndToEnd
import Verif.Props.Envelope
import Verif.Props.Files
import Verif.Props.Fill
import Verif.Props.First
import Verif.Props.Grammar
import Verif.Props.Graph
import Verif.Props.Held
import Verif.Props.Hooke
import Verif.Props.Hull
import Verif.Props.Inherit
import Verif.Props.Inverse
import Verif.Props.Kinetic
import Verif.Props.Labels
import Verif.Props.Lists
import Verif.Props.Load
import Verif.Props.MeshFile
import Verif.Props.Patch
import Verif.Props.Picture
import Verif.Props.Piece
import Verif.Props.Pipeline
import Verif.Props.Predicates
import Verif.Props.Quadrature
import Verif.Props.Raster
import Verif.Props.Ready
import Verif.Props.Recovery
import Verif.Props.Refine
import Verif.Props.Remade
import Verif.Props.Report
import Verif.Props.Response
import Verif.Props.Ring
import Verif.Props.Ruppert
import Verif.Props.Solve
import Verif.Props.Sparse
import Verif.Props.Starts
import Verif.Props.Steady
import Verif.Props.Steps
import Verif.Props.Stress
import Verif.Props.Study
import Verif.Props.Thickness
import Verif.Props.ToAssemblage
import Verif.Props.Total
import Verif.Props.Triangles
import Verif.Props.Vertex
import Verif.Props.Walls
import Verif.Props.Wrap
