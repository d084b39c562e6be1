import Verif.Model.F64
import Verif.Model.Base
import Verif.Model.Hit
import Verif.Model.Tpx3
import Verif.Model.Pipeline
import Verif.Model.Generator
import Verif.Model.Peak
import Verif.Model.Abs
import Verif.Spec.Packet
import Verif.Spec.Stream
import Verif.Spec.Cluster
import Verif.Spec.Peak
import Verif.Lemmas.F64
import Verif.Lemmas.Bits
import Verif.Lemmas.Hit
import Verif.Lemmas.Words
import Verif.Lemmas.Tpx3
import Verif.Lemmas.Scan
import Verif.Lemmas.Abs
import Verif.Lemmas.AbsFit
import Verif.Props.Hit
import Verif.Props.Clock
import Verif.Props.Packets
import Verif.Props.Scan
import Verif.Props.Abs
import Verif.Props.Peak
import Verif.Model.Parallel
import Verif.Model.Reader
import Verif.Model.Cli
import Verif.Props.Parallel
import Verif.Props.Reader
import Verif.Model.Gdc
import Verif.Spec.Gdc
import Verif.Props.Gdc
import Verif.Model.Image
import Verif.Spec.Image
import Verif.Lemmas.Image
import Verif.Props.Binning
import Verif.Props.Image
import Verif.Model.Tiff
import Verif.Props.Tiff
import Verif.Model.H5
import Verif.Spec.H5
import Verif.Lemmas.H5
import Verif.Props.H5
import Verif.Model.Config
import Verif.Spec.Config
import Verif.Props.Config
import Verif.Model.Reducer
import Verif.Spec.Reducer
import Verif.Props.Reducer
import Verif.Model.Legacy
import Verif.Spec.Legacy
import Verif.Props.Legacy
import Verif.Props.LegacyStream
import Verif.Model.StreamCli
import Verif.Spec.Threads
import Verif.Props.StreamCli
import Verif.Model.Dbscan
import Verif.Spec.Dbscan
import Verif.Props.Dbscan
import Verif.Props.DbscanFit
import Verif.Props.DbscanEvents
import Verif.Model.Display
import Verif.Props.Display
import Verif.Model.DisplayParse
import Verif.Spec.Display
import Verif.Props.DisplayParse
import Verif.Model.DisplayWorker
import Verif.Spec.DisplayWorker
import Verif.Props.DisplayWorker
import Verif.Model.LegacyAbs
import Verif.Props.LegacyAbs
import Verif.Model.Gui
import Verif.Spec.Gui
import Verif.Props.Gui
import Verif.Props.Early
import Verif.Model.CliMain
import Verif.Spec.CommandLine
import Verif.Props.CommandLine
import Verif.Props.CliMain
import Verif.Lemmas.AbsOpen
import Verif.Props.AbsOpen
import Verif.Model.Text
import Verif.Spec.Text
import Verif.Lemmas.Text
import Verif.Props.Text
import Verif.Model.Getopt
import Verif.Lemmas.Getopt
import Verif.Model.GdcMain
import Verif.Spec.GdcMain
import Verif.Props.GdcMain
import Verif.Model.ReducerMain
import Verif.Spec.ReducerMain
import Verif.Props.ReducerMain
import Verif.Replay
import Verif.Model.Reference
import Verif.Spec.Reference
import Verif.Props.Reference
import Verif.ReplayFiles
import Verif.Model.LegacySave
import Verif.Spec.LegacySave
import Verif.Props.LegacySave
import Verif.Props.LegacyFiles
import Verif.Spec.Interleaved
import Verif.Props.Interleaved
import Verif.Props.EndToEnd
import Verif.Model.Bench
import Verif.Spec.Bench
import Verif.Props.Bench
import Verif.Model.SelfCheck
import Verif.Props.SelfCheck
import Verif.Spec.Cut
import Verif.Props.Cut
import Verif.Spec.Invariance
import Verif.Props.Invariance
import Verif.Spec.Detector
import Verif.Props.Detector
import Verif.Spec.AnyFile
import Verif.Props.AnyFile
import Verif.Props.AnyRun
import Verif.Model.FakeHits
import Verif.Spec.FakeHits
import Verif.Props.FakeHits
import Verif.Model.Race
import Verif.Spec.Race
import Verif.Props.Race
import Verif.Model.JsonText
import Verif.Spec.JsonText
import Verif.Lemmas.JsonText
import Verif.Props.JsonText
import Verif.Spec.Arrival
import Verif.Props.Arrival
import Verif.Props.StampName
import Verif.Props.DetectorImages
import Verif.Props.ReferenceTrigger
import Verif.Props.DetectorLegacy
import Verif.Spec.GaussFit
import Verif.Props.GaussFit
import Verif.Props.DetectorStream
import Verif.Spec.DetectorDisplay
import Verif.Props.DetectorDisplay
import Verif.Spec.DetectorViewer
import Verif.Props.DetectorViewer
import Verif.Spec.DetectorMmap
import Verif.Props.DetectorMmap
import Verif.Model.GeneratorMain
import Verif.Props.GeneratorMain
import Verif.Model.Raw2Hits
import Verif.Props.Raw2Hits
import Verif.Spec.FromText
import Verif.Props.FromText
import Verif.Model.ReferenceText
import Verif.Spec.ReferenceText
import Verif.Lemmas.TextPrec
import Verif.Props.ReferenceText
import Verif.Spec.DetectorCut
import Verif.Props.DetectorCut
import Verif.Spec.SplitNeutrons
import Verif.Props.SplitNeutrons
import Verif.Model.DisplayWindow
import Verif.Spec.DisplayWindow
import Verif.Props.DisplayWindow
import Verif.Spec.AbsCalls
import Verif.Props.AbsCalls
import Verif.Spec.DbscanGroups
import Verif.Props.DbscanGroups
import Verif.Model.RandomTests
import Verif.Spec.RandomTests
import Verif.Props.RandomTests
import Verif.Model.Describe
import Verif.Spec.Describe
import Verif.Props.Describe
import Verif.Spec.BenchText
import Verif.Props.BenchText
import Verif.Model.FastMath
import Verif.Spec.FastMath
import Verif.Lemmas.Near
import Verif.Props.FastMath
import Verif.Model.Version
import Verif.Spec.Version
import Verif.Props.Version
import Verif.Spec.DisplayAny
import Verif.Props.DisplayAny
import Verif.Model.GuiFiles
import Verif.Spec.GuiFiles
import Verif.Props.GuiFiles
import Verif.Spec.ScanAny
import Verif.Props.ScanAny
import Verif.Spec.Damage
import Verif.Props.Damage
import Verif.Spec.Ieee
import Verif.Props.Ieee
import Verif.Model.BenchScript
import Verif.Spec.BenchScript
import Verif.Props.BenchScript
import Verif.Spec.Size
import Verif.Props.Size
import Verif.Spec.Lossless
import Verif.Props.Lossless
import Verif.Props.Independent
import Verif.Model.Memory
import Verif.Spec.Memory
import Verif.Props.Memory
import Verif.Spec.Split
import Verif.Props.Split
import Verif.Spec.Refine
import Verif.Props.Refine
import Verif.Spec.Threshold
import Verif.Props.Threshold
import Verif.Spec.TimeRef
import Verif.Props.TimeRef
