import Verif.Frame.Props
import Verif.Frame.Group
import Verif.Csm.Props
import Verif.Csm.MergeProps
import Verif.Time.Props
import Verif.Base.Binary64
import Verif.Time.ResampleFloat
import Verif.Measurement.Props
import Verif.Validators.Props
import Verif.Nested.Props
import Verif.Geometry.Raster
import Verif.Mesh.Orient
import Verif.Trace.Solid
import Verif.Trace.SolidStack
import Verif.Trace.Custom
import Verif.Trace.Motion
import Verif.Interp.Props
import Verif.Interp.Float
import Verif.TimeLcs.Examples
import Verif.TimeSeries.Props
import Verif.MathExpr.Series
import Verif.File.Protected
import Verif.File.Session
import Verif.File.SessionProps
import Verif.File.Header
import Verif.File.Hash
import Verif.File.Metadata
import Verif.Version.Props
import Verif.Version.TagsProps
import Verif.Groove.Arcs
import Verif.Media.Props
import Verif.Csm.SerialProps
import Verif.Csm.EqualityProps
import Verif.Csm.RelabelProps
import Verif.Csm.AliasProps
import Verif.Csm.AliasRefine
import Verif.Csm.AliasTarget
import Verif.Series.DiscreteProps
import Verif.Validators.WalkProps
import Verif.Time.TagsProps
import Verif.TimeSeries.Tag
import Verif.Series.InitProps
import Verif.Series.TagProps
import Verif.Csm.InterpTimeProps
import Verif.TimeLcs.InterpCsm
import Verif.TimeLcs.ConstructProps
import Verif.TimeLcs.TagProps
import Verif.Frame.RotationProps
import Verif.Groove.FrontProps
import Verif.Groove.UnitsProps
import Verif.TimeLcs.ConstructSeriesProps
import Verif.TimeLcs.ExprRefProps
import Verif.MathExpr.EqualityProps
import Verif.Measurement.Equality
import Verif.Storage.Props
import Verif.Storage.SpatialProps
import Verif.Frame.LabelledProps
import Verif.Time.ConvertProps
import Verif.Time.ConvertFloat
import Verif.Groove.ArcAreaProps
import Verif.File.ExternalProps
import Verif.Media.Storage
import Verif.Xarray.TimeRefProps
import Verif.Xarray.UnitsProps
import Verif.Geometry.Objects
import Verif.Storage.DataclassProps
import Verif.Mesh.Solid
import Verif.Csm.Create
import Verif.Csm.Layout
import Verif.SchemaTree.Model
import Verif.SchemaTree.Props
import Verif.Schema.Model
import Verif.Schema.Files
import Verif.Schema.Lemmas
import Verif.Schema.Trees
import Verif.Schema.Basic
import Verif.Schema.Series
import Verif.Schema.Shapes
import Verif.Schema.Geometry
import Verif.Schema.Frames
import Verif.Schema.Graphs
import Verif.Schema.Classes
import Verif.Schema.Meta
import Verif.Schema.Props
import Verif.Trace.Expression
import Verif.Trace.ExpressionProps
import Verif.Trace.ArcLength
import Verif.Trace.Shifted
import Verif.Trace.Discrete
import Verif.Trace.ShapePoints
import Verif.Frame.Tolerance
import Verif.Frame.ToleranceProps
import Verif.Frame.ToleranceBounds
import Verif.Frame.Rounded
import Verif.Frame.RoundedLemmas
import Verif.Frame.RoundedProps
import Verif.TimeLcs.Slerp
import Verif.TimeLcs.SlerpLemmas
import Verif.TimeLcs.SlerpProps
import Verif.Xarray.Check
import Verif.Xarray.CheckProps
import Verif.Csm.Unmerge
import Verif.Csm.UnmergeProps
import Verif.Geometry.Units
import Verif.Geometry.UnitsProps
import Verif.Geometry.UnitsMoves
import Verif.Geometry.ArcFloatAngle
import Verif.Geometry.ArcFloatLimits
import Verif.Geometry.ShapeFloatLimits
import Verif.Groove.GrooveFloatUV
import Verif.Groove.InterpFloat
import Verif.Groove.InterpFloatProps
import Verif.Groove.RasterLines
import Verif.Groove.RasterLinesProps
import Verif.Groove.FrontFloatProps
import Verif.Groove.GrooveFloatDegrees
import Verif.Trace.Units
import Verif.Trace.UnitsProps
import Verif.Trace.RasterFloat
import Verif.TimeLcs.Units
import Verif.TimeLcs.UnitsProps
import Verif.TimeLcs.NoTime
import Verif.Csm.SerialMap
import Verif.TimeLcs.FileQuery
import Verif.Schema.Texts
import Verif.TimeLcs.Manager
import Verif.TimeLcs.NamedTime
import Verif.TimeLcs.FileAnswer
import Verif.TimeLcs.TimedData
import Verif.TimeLcs.Scan
import Verif.TimeLcs.DataRef
import Verif.TimeLcs.NoTimeManager
import Verif.MathExpr.Units
import Verif.MathExpr.UnitsSeries
import Verif.MathExpr.UnitsArrays
import Verif.MathExpr.UnitsTime
import Verif.MathExpr.UnitsGeneric
import Verif.Docs.Inherit
import Verif.File.WriteSettings
import Verif.Geometry.Orthogonal
import Verif.Nested.Leaves
import Verif.Series.MethodName
import Verif.Geometry.OrthogonalMatrix
