import Verif.Bernstein.Created
import Verif.Bernstein.Element
import Verif.Bernstein.Functional
import Verif.Bernstein.Model
import Verif.Bernstein.Props
import Verif.Bernstein.Restrict
import Verif.Caching.Lemmas
import Verif.Caching.Library
import Verif.Caching.Model
import Verif.Caching.Props
import Verif.Caching.Rational
import Verif.Caching.Spec
import Verif.Create.Classes
import Verif.Create.Model
import Verif.Create.Props
import Verif.Degrees.Averages
import Verif.Degrees.Aw
import Verif.Degrees.Basic
import Verif.Degrees.Further
import Verif.Degrees.Mtw
import Verif.Degrees.Scalar
import Verif.Degrees.Solids
import Verif.Degrees.Tnt
import Verif.Degrees.TntVector
import Verif.Degrees.Trimmed
import Verif.Degrees.Vector
import Verif.Dual.BC
import Verif.Dual.Geometry
import Verif.Dual.Model
import Verif.Dual.Props
import Verif.Elements.Counts
import Verif.Elements.Creation
import Verif.Elements.Interp
import Verif.Elements.Lagrange
import Verif.Elements.Points
import Verif.Elements.PropsDpc
import Verif.Elements.PropsLagrange
import Verif.Elements.PropsPrism
import Verif.Elements.PropsPyramid
import Verif.Elements.PropsQ
import Verif.Elements.Solid
import Verif.Elements.Table
import Verif.Elements.Tensor
import Verif.Elements.TensorBasis
import Verif.Families.Abf
import Verif.Families.Ac
import Verif.Families.Bdfm
import Verif.Families.BdfmSimp
import Verif.Families.BdfmTet
import Verif.Families.BernardiRaugel
import Verif.Families.BoxDiv
import Verif.Families.BoxParts
import Verif.Families.Bridge
import Verif.Families.CR
import Verif.Families.Conform
import Verif.Families.ConformBox
import Verif.Families.ConformWith
import Verif.Families.Core
import Verif.Families.Count
import Verif.Families.Enrich
import Verif.Families.Facets
import Verif.Families.Hcurl
import Verif.Families.Hcurl2
import Verif.Families.Hdiv
import Verif.Families.HuangZhang
import Verif.Families.Kmv
import Verif.Families.KmvCreated
import Verif.Families.KmvEntity
import Verif.Families.KmvFail
import Verif.Families.MapCell
import Verif.Families.Mapped
import Verif.Families.Model
import Verif.Families.Mtw
import Verif.Families.NedelecPrism
import Verif.Families.NotConform
import Verif.Families.NotConformAbf
import Verif.Families.NotConformBox
import Verif.Families.NotConformDiv
import Verif.Families.NotConformHz
import Verif.Families.NotConformTnt
import Verif.Families.Positive
import Verif.Families.PropsFull
import Verif.Families.PropsN1
import Verif.Families.PropsRT
import Verif.Families.QCurl
import Verif.Families.QDiv
import Verif.Families.QModel
import Verif.Families.QSpace
import Verif.Families.QSub
import Verif.Families.QTrace
import Verif.Families.Rot
import Verif.Families.SerCurl
import Verif.Families.SerCurl3
import Verif.Families.SerCurlLemmas
import Verif.Families.SerCurlSpan
import Verif.Families.SerDiv
import Verif.Families.Space
import Verif.Families.Spans
import Verif.Families.Sub
import Verif.Families.TntCurl
import Verif.Families.TntDiv
import Verif.Families.TntDivSpace
import Verif.Families.Trace
import Verif.Families.Trimmed
import Verif.Families.TrimmedCurl
import Verif.Families.TrimmedDiv
import Verif.FiniteElement.Model
import Verif.FiniteElement.PropsBasis
import Verif.FiniteElement.PropsEntity
import Verif.FiniteElement.PropsMap
import Verif.FiniteElement.PropsPlot
import Verif.FiniteElement.PropsTabulate
import Verif.Functionals.Directions
import Verif.Functionals.Map
import Verif.Functionals.Model
import Verif.Functionals.Pieces
import Verif.Functionals.Positions
import Verif.Functionals.PositionsProps
import Verif.Functionals.PropsInvariant
import Verif.Functionals.PropsLinear
import Verif.Functionals.PropsMoment
import Verif.Functionals.PropsPoly
import Verif.Functions.Degree
import Verif.Functions.Expr
import Verif.Functions.Lazy
import Verif.Functions.Model
import Verif.Functions.Piecewise
import Verif.Functions.PropsArith
import Verif.Functions.PropsDiff
import Verif.Functions.PropsIter
import Verif.Functions.PropsSubs
import Verif.Geometry.Model
import Verif.Geometry.Props
import Verif.Geometry.Spec
import Verif.Macro.Alfeld
import Verif.Macro.AlfeldElement
import Verif.Macro.Basic
import Verif.Macro.Gn
import Verif.Macro.GnBr
import Verif.Macro.GnCreate
import Verif.Macro.GnModel
import Verif.Macro.Hct
import Verif.Macro.HctElement
import Verif.Macro.Nodal
import Verif.Macro.P1IsoP2
import Verif.Macro.P1IsoP2Quad
import Verif.Macro.P1Macro
import Verif.Macro.Rhct
import Verif.Mappings.Lemmas
import Verif.Mappings.Model
import Verif.Mappings.Props
import Verif.Mappings.Spec
import Verif.Matrices.Aw
import Verif.Matrices.AwEdge
import Verif.Matrices.AwFour
import Verif.Matrices.AwLabel
import Verif.Matrices.AwModel
import Verif.Matrices.AwSpace
import Verif.Matrices.Hhj
import Verif.Matrices.HhjModel
import Verif.Matrices.LagrangeMatrix
import Verif.Matrices.Model
import Verif.Matrices.NcAw
import Verif.Matrices.NcAwCreated
import Verif.Matrices.Regge
import Verif.Moments.Model
import Verif.Moments.Props
import Verif.Orthogonal.Closed
import Verif.Orthogonal.Equations
import Verif.Orthogonal.Fill
import Verif.Orthogonal.Integral
import Verif.Orthogonal.Jacobi
import Verif.Orthogonal.Leibniz
import Verif.Orthogonal.Lobatto
import Verif.Orthogonal.Model
import Verif.Orthogonal.Natural
import Verif.Orthogonal.Orthonormal
import Verif.Orthogonal.PropsDerivs
import Verif.Orthogonal.PropsIndex
import Verif.Orthogonal.PropsLobatto
import Verif.Orthogonal.PropsLobattoDual
import Verif.Orthogonal.PropsOrtho
import Verif.Orthogonal.Pyramid
import Verif.Orthogonal.Rings
import Verif.Plotting.Canvas
import Verif.Plotting.Curve
import Verif.Plotting.Diagram
import Verif.Plotting.Model
import Verif.Plotting.Order
import Verif.Plotting.Output
import Verif.Plotting.Plot
import Verif.Polysets.Independence
import Verif.Polysets.Lemmas
import Verif.Polysets.Model
import Verif.Polysets.Props
import Verif.Polysets.PropsSer
import Verif.Polysets.PropsTensor
import Verif.Polysets.PropsVec
import Verif.Polysets.SerendipityModel
import Verif.Polysets.Spec
import Verif.Quadrature.Exact
import Verif.Quadrature.Lemmas
import Verif.Quadrature.Model
import Verif.Quadrature.Props
import Verif.Quadrature.Spec
import Verif.References.Intersect
import Verif.References.Maps
import Verif.References.Model
import Verif.References.Props
import Verif.References.PropsContains
import Verif.References.PropsDualDistinct
import Verif.References.PropsDualLattice
import Verif.References.PropsIntersect
import Verif.References.PropsLattice
import Verif.References.PropsLines
import Verif.References.PropsMaps
import Verif.References.PropsNormal
import Verif.References.Shape
import Verif.References.Spec
import Verif.References.SpecShape
import Verif.Scalar.Barycentric
import Verif.Scalar.Bubble
import Verif.Scalar.BubbleEnriched
import Verif.Scalar.ConformingCR
import Verif.Scalar.DirectSerendipity
import Verif.Scalar.EnrichedGalerkin
import Verif.Scalar.Lag
import Verif.Scalar.Model
import Verif.Scalar.NonConforming
import Verif.Scalar.Ser
import Verif.Scalar.Serendipity
import Verif.Scalar.Simplex
import Verif.Scalar.Tnt
import Verif.Scalar.TntPoly
import Verif.Scalar.TntSpace
import Verif.Scalar.Trace
import Verif.Scalar.Transition
import Verif.Scalar.TransitionSpace
import Verif.Smooth.Argyris
import Verif.Smooth.Bell
import Verif.Smooth.Bfs
import Verif.Smooth.Chain
import Verif.Smooth.Edge
import Verif.Smooth.Hermite
import Verif.Smooth.Jet
import Verif.Smooth.JetDofs
import Verif.Smooth.MultiDeriv
import Verif.Smooth.Mwx
import Verif.Smooth.Taylor
import Verif.Smooth.WuXu
import Verif.Utils.Model
import Verif.Utils.Props
import Verif.Utils.Spec
