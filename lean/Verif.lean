import Verif.Loss.Props
import Verif.Particles.Props
import Verif.Energy.Props
import Verif.Rng.Props
import Verif.Record.Props
import Verif.Tracker.Props
import Verif.Tracker.CollProps
import Verif.Pipeline.Props
import Verif.Monitors.Props
import Verif.Monitors.BpmProps
import Verif.Config.Props
import Verif.MultiSetter.Props
import Verif.Slicing.WeightsProps
import Verif.Slicing.ReplicaProps
import Verif.Slicing.Props
import Verif.Slicing.CutProps
import Verif.Composer.ResolveProps
import Verif.Composer.OrderProps
import Verif.Composer.BuildProps
import Verif.Composer.FlattenProps
import Verif.Composer.InsertProps
import Verif.Lines.AlgebraProps
import Verif.Lines.EditProps
import Verif.Frames.Props
import Verif.Apertures.Props
import Verif.Apertures.ImpactProps
import Verif.Cleanup.AperProps
import Verif.Cleanup.SharedProps
import Verif.Magnets.KickProps
import Verif.Magnets.DriftProps
import Verif.Magnets.BodyProps
import Verif.Magnets.BodyField
import Verif.Magnets.BodyRef
import Verif.Magnets.BendFieldsProps
import Verif.Survey.Props
import Verif.Survey.Slices
import Verif.Survey.Reverse
import Verif.Edges.Props
import Verif.Edges.Linear
import Verif.Rf.Props
import Verif.Symplectic.Props
import Verif.SegMap.Model
import Verif.SegMap.Spec
import Verif.SegMap.Lemmas
import Verif.SegMap.Props
import Verif.SegMap.Violations
import Verif.SegMap.Long
import Verif.SegMap.Symplectic
import Verif.SegMap.SympProps
import Verif.Thin.Model
import Verif.Thin.Symplectic
import Verif.Thin.Spec
import Verif.Thin.Props
import Verif.Thin.Lenses
import Verif.Thin.Violations
import Verif.Twiss.Model
import Verif.Twiss.Lemmas
import Verif.Twiss.Spec
import Verif.Twiss.Props
import Verif.Twiss.Optics
import Verif.Twiss.Functions
import Verif.Twiss.Dispersion
import Verif.Twiss.Phase
import Verif.Twiss.Beam
import Verif.Twiss.Matrices
import Verif.Twiss.Reverse
import Verif.Twiss.Modes
import Verif.Twiss.NormalForm
import Verif.Twiss.NormalForm4d
import Verif.Taylor.Model
import Verif.Taylor.Props
import Verif.Taylor.Split
import Verif.Ranges.Model
import Verif.Ranges.Lemmas
import Verif.Ranges.Spec
import Verif.Ranges.Props
import Verif.Ranges.Turns
import Verif.Ranges.Violations
import Verif.Sync.Props
import Verif.Sync.Violations
import Verif.Rdt.FeedDown
import Verif.Rdt.Motion
import Verif.Spin.Props
import Verif.Rad.Mean
import Verif.Rad.Photons
import Verif.Tables.Select
import Verif.Tables.Csv
import Verif.Tables.Json
import Verif.Tables.Header
import Verif.Taper.Props
import Verif.Pdg.Props
import Verif.EdwTeng.Model
import Verif.EdwTeng.Props
import Verif.EdwTeng.Turn
import Verif.EdwTeng.Functions
import Verif.Chrom.Model
import Verif.Chrom.Props
import Verif.Attr.Model
import Verif.Attr.Props
import Verif.LossRef.Model
import Verif.LossRef.Props
import Verif.Match.Knobs
import Verif.Match.KnobProps
import Verif.Match.Ineq
import Verif.Lumi.Model
import Verif.Lumi.Props
import Verif.Steer.Model
import Verif.Steer.Props
import Verif.Polar.Model
import Verif.Polar.Props
import Verif.Equil.Model
import Verif.Equil.Props
import Verif.Footprint.Model
import Verif.Footprint.Lemmas
import Verif.Footprint.Props
import Verif.Footprint.Diagram
import Verif.Saved.Model
import Verif.Saved.Elements
import Verif.Saved.Lines
import Verif.Saved.LinesProps
import Verif.Saved.Shared
import Verif.EProg.Model
import Verif.EProg.Props
import Verif.Proto.Props
import Verif.Mad.ExprProps
import Verif.Mad.LinesProps
import Verif.LineAlg.Props
import Verif.Mad.ElementsProps
import Verif.Mad.RoundProps
import Verif.Mad.OrderProps
import Verif.AperModel.SearchProps
import Verif.AperModel.IntervalsProps
import Verif.AperModel.PolygonProps
import Verif.AperModel.BeamProps
import Verif.AperModel.RaysProps
import Verif.AperModel.PosesProps
import Verif.AperModel.SegmentsProps
import Verif.AperModel.CurvilinearProps
import Verif.AperModel.BoundsProps
import Verif.AperModel.ShapesProps
import Verif.AperModel.LimitsProps
import Verif.AperModel.ShapesLength
import Verif.BeamStats.Props
import Verif.BeamStats.Coasting
import Verif.BeamStats.Stats
import Verif.BeamStats.Profiles
import Verif.BeamStats.File
import Verif.ClosedOrbit.Props
import Verif.Boris.Props
import Verif.Cooler.Props
import Verif.Session.Props
import Verif.Reread.Props
import Verif.Hdf.Props
import Verif.Calls.Props
import Verif.Load.Props
import Verif.Rename.Props
import Verif.FromSeq.Props
import Verif.RelErr.Props
import Verif.VarLoad.Props
import Verif.RevElem.Props
import Verif.Cleanup.Optimize
import Verif.Extend.Props
