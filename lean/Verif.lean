import Verif.BitManip.Props
import Verif.NumericTraits.Props
import Verif.NumericTraits.ExactProps
import Verif.Morton.Props
import Verif.Morton.ExactProps
import Verif.DisjointSet.Props
import Verif.DisjointSet.WidthProps
import Verif.LabelSet.Props
import Verif.Interval.Props
import Verif.Interval.StepProps
import Verif.Interval.ExactProps
import Verif.Grid.Props
import Verif.Grid.ThrowProps
import Verif.Heap.Props
import Verif.Heap.NextProps
import Verif.Heap.RelProps
import Verif.Heap.SortProps
import Verif.Heap.CountProps
import Verif.Heap.WidthProps
import Verif.MortonTree.Props
import Verif.MortonTree.WidthModel
import Verif.MortonTree.WidthProps
import Verif.MortonTree.Float
import Verif.ParamMap.Props
import Verif.Profiler.Props
import Verif.PeakFinder.OrderProps
import Verif.PeakFinder.Props
import Verif.MortonFloat.Props
import Verif.MortonFloat.IntervalProps
import Verif.Functions.Props
import Verif.Functions.PnebiProps
import Verif.Functions.OrderProps
import Verif.Functions.FastTrig
import Verif.Functions.FastTrigAccuracy
import Verif.Tls.Props
import Verif.Tls.Invariance
import Verif.Geometry2.Props
import Verif.Box.Props
import Verif.Gis.Props
import Verif.GisFp.Ecef
import Verif.Box.RegistrationProps
import Verif.Box.IterateProps
import Verif.Box.InitProps
import Verif.Hough.PlaneProps
import Verif.Hough.FindProps
import Verif.Hough.LineProps
import Verif.Hough.Peaks
import Verif.CorrGraph.CliqueProps
import Verif.PlaneAligner.Props
import Verif.Io.Props
import Verif.FunctionsFp.AtanProps
import Verif.FunctionsFp.Normalize
import Verif.FunctionsFp.CosSin
import Verif.FunctionsFp.CosSinf
import Verif.Geometry2Fp.Angle
import Verif.Geometry2Fp.PoseProps
import Verif.LutPrint.Props
import Verif.Text.Props
import Verif.Text.Macros
import Verif.Profiler.Timer
import Verif.MortonTree.Items
import Verif.Text.Tree
import Verif.Text.Assert
import Verif.ParamMap.File
import Verif.Hough.Cover
import Verif.Profiler.Float
import Verif.FunctionsFp.LuCos
import Verif.FunctionsFp.Fourier
import Verif.FunctionsFp.LuFourier
import Verif.FunctionsFp.PnebiProps
import Verif.FunctionsFp.PnebiVectorProps
import Verif.FunctionsFp.LutProps
import Verif.TlsFp.Props
import Verif.TlsFp.Cap
import Verif.HoughFp.OrderProps
import Verif.HoughFp.Props
import Verif.HoughFp.LineProps
import Verif.HoughFp.InitProps
import Verif.HoughFp.WindowProps
import Verif.Bessel.Props
import Verif.Bessel.VectorProps
import Verif.Bessel.LutProps
import Verif.CorrGraph.FpProps
import Verif.Box.FpProps
import Verif.Interval.BackProps
import Verif.NumericTraits.DivideProps
import Verif.PlaneAligner.FpProps
import Verif.PlaneAligner.FpCenter
import Verif.PlaneAligner.FpTiny
import Verif.Hough.ThrowProps
import Verif.ParamMap.ExactProps
import Verif.Geometry2.ScaleProps
import Verif.MortonTree.BoxProps
import Verif.LabelSet.ExactProps
import Verif.Text.ExactProps
import Verif.MortonTree.ItemProps
import Verif.MortonTree.KeepProps
import Verif.NumericTraits.PowProps
import Verif.Interval.EmptyProps
import Verif.DisjointSet.IdProps
import Verif.ParamMap.ArgProps
import Verif.ParamMap.TildeProps
import Verif.MortonFloat.MonoProps
import Verif.MortonTree.SetProps
import Verif.Functions.BoundProps
import Verif.ParamMap.MergeProps
import Verif.Gis.InjProps
import Verif.DisjointSet.OrderProps
import Verif.Tls.OrderProps
import Verif.Profiler.OrderProps
import Verif.ParamMap.ConfigProps
import Verif.CorrGraph.MotionProps
import Verif.Hough.PlotProps
import Verif.MortonFloat.Regular
import Verif.MortonFloat.AgreeProps
import Verif.MortonFloat.DistProps
import Verif.MortonTree.FloatGrid
import Verif.Gis.ExactProps
import Verif.PlaneAligner.ExactProps
import Verif.FunctionsFp.AtanExact
import Verif.Tls.RecoveryProps
import Verif.Gis.ScaleProps
import Verif.Box.SymmetryProps
import Verif.CorrGraph.SymmetryProps
import Verif.Morton.CurveProps
import Verif.DisjointSet.ExactProps
import Verif.ParamMap.PrecedenceExact
import Verif.MortonFloat.IntervalExact
import Verif.Functions.HarmonicProps
import Verif.PeakFinder.ShiftProps
import Verif.Box.OptimalProps
import Verif.Box.InitExact
import Verif.Functions.NormalizeExact
import Verif.Profiler.ExactProps
import Verif.MortonTree.SearchExact
import Verif.Hough.PlaneExact
import Verif.NumericTraits.DivideExact
import Verif.Tls.MirrorProps
import Verif.MortonFloat.UnitProps
import Verif.Hough.TurnProps
import Verif.Box.MoveProps
import Verif.PeakFinder.FilterProps
import Verif.PeakFinder.RowProps
import Verif.PlaneAligner.MoveProps
import Verif.Functions.AngleOrder
import Verif.FunctionsFp.OrderProps
import Verif.ParamMap.SaveProps
import Verif.Functions.PolarProps
import Verif.FunctionsFp.PolarProps
import Verif.Heap.QueueProps
import Verif.Profiler.UnitProps
import Verif.Gis.LegProps
import Verif.Heap.StreamProps
import Verif.Grid.OutsideProps
import Verif.ParamMap.StoredModel
import Verif.ParamMap.StoredProps
import Verif.DisjointSet.ForestProps
import Verif.Grid.ReinitExact
import Verif.MortonTree.WidthExact
import Verif.MortonTree.MemberProps
import Verif.DisjointSet.TotalProps
import Verif.Text.AssertExact
import Verif.ParamMap.CutProps
import Verif.Functions.LutExact
import Verif.LutPrint.CountExact
import Verif.DisjointSet.WidthExact
import Verif.Functions.LutShape
import Verif.Grid.ReinitPlane
import Verif.Heap.PhaseProps
import Verif.Heap.QueuePhase
import Verif.Grid.ReinitSpace
import Verif.Heap.WidthExact
import Verif.CorrGraph.HistoryProps
import Verif.Heap.SmallProps
import Verif.Heap.SmallQueue
import Verif.Grid.ThrowExact
import Verif.HoughFp.WindowExact
import Verif.Hough.ThrowExact
import Verif.FunctionsFp.NormalizeExact
import Verif.Geometry2Fp.AngleExact
import Verif.FunctionsFp.AtanRange
