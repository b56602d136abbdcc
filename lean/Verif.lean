import Verif.Num
import Verif.Props.BinPacking
import Verif.Props.PlanSet
import Verif.Props.Path
import Verif.Props.PathText
import Verif.Props.Curve
import Verif.Props.CurveOps
import Verif.Props.Offset
import Verif.Props.OffsetFunc
import Verif.Props.Clean
import Verif.Props.Join
import Verif.Props.PathOffset
import Verif.Props.Affine
import Verif.Props.Knife
import Verif.Props.Transform
import Verif.Props.Lines
import Verif.Props.Dynmap
import Verif.Props.Params
import Verif.Props.Functions
import Verif.Props.Logging
import Verif.Props.Files
import Verif.Props.FileSystem
import Verif.Props.Main
import Verif.Props.Parsed
import Verif.Props.Xml
import Verif.Props.Custom
import Verif.Props.Parts
import Verif.Props.Gear
import Verif.Props.Helpers
import Verif.Props.Components
import Verif.Props.Intercepts
import Verif.Props.Scale
import Verif.Props.DrawComponent
import Verif.Props.Small
import Verif.Props.Sort
import Verif.Props.Attr
import Verif.Props.Factory
import Verif.Props.Tree
import Verif.Props.Document
import Verif.Props.SvgShapes
import Verif.Props.SvgDoc
import Verif.Props.SvgClone
import Verif.Props.Typecast
import Verif.Props.Commands
import Verif.Props.Render
import Verif.Props.Leaving
import Verif.Props.Outline
import Verif.Props.Refine
import Verif.Props.RefineParts
import Verif.Props.RefineDoc
import Verif.Props.Lookup
import Verif.Props.Rounded
import Verif.Props.RoundedSheets
import Verif.Props.NearBox
import Verif.Props.NearCurve
import Verif.Props.NearPath
import Verif.Props.NearText
import Verif.Props.NearSheet
import Verif.Props.Dedup
import Verif.Props.Rotate
import Verif.Props.Seen
import Verif.Props.NearShapes
import Verif.Props.Pen
import Verif.Props.SelfCross
import Verif.Props.Sketch
import Verif.Spec.SeenPart
import Verif.Props.SeenPart
import Verif.Spec.Tiles
import Verif.Props.Tiles
import Verif.Spec.Formula
import Verif.Lemmas.Formula
import Verif.Props.Formula
import Verif.Spec.Meeting
import Verif.Props.Meeting
import Verif.Props.KnifeCurve
import Verif.Spec.SliceCurve
import Verif.Props.SliceCurve
import Verif.Spec.Crossing
import Verif.Props.Crossing
import Verif.Props.InterceptCurve
import Verif.Spec.OffsetRect
import Verif.Lemmas.SepLines
import Verif.Lemmas.JoinLines
import Verif.Lemmas.JoinRect
import Verif.Props.OffsetRect
import Verif.Spec.Piece
import Verif.Spec.Plate
import Verif.Lemmas.Piece
import Verif.Props.Plate
import Verif.Spec.Scene
import Verif.Lemmas.Scene
import Verif.Props.Scene
import Verif.Spec.Joint
import Verif.Props.Joint
import Verif.Props.Lifted
import Verif.Props.JoinedJoint
import Verif.Spec.Board
import Verif.Props.Board
import Verif.Spec.Wheel
import Verif.Props.Wheel
import Verif.Spec.Tab
import Verif.Props.Tab
import Verif.Spec.Line
import Verif.Spec.Screw
import Verif.Spec.SvgEdge
import Verif.Spec.Rectangle
import Verif.Spec.Centre
import Verif.Props.Line
import Verif.Props.Screw
import Verif.Props.SvgEdge
import Verif.Props.Rectangle
import Verif.Props.Centre
import Verif.Spec.Panel
import Verif.Props.Panel
import Verif.Spec.OnPaper
import Verif.Props.OnPaper
import Verif.Props.Nearest
import Verif.Props.Details
import Verif.Props.Spelling
import Verif.Props.Defaults
import Verif.Props.Unreached
import Verif.Props.Words
