import Verif.Model.Cli
import Verif.Model.Config
import Verif.Model.Gdc
import Verif.Model.Generator
import Verif.Model.Legacy
import Verif.Model.LegacySave
import Verif.Model.Text
import Verif.Lemmas.Hit

/-!
# The project's unit tests, replayed on the model

These are tests of the model, not proofs of properties: each `example` computes what a test of the project computes and
compares with the value that the test expects.  Tests with random data or with data files that are not small are left out
(`ReplayFiles.lean` has those of the data files that are in the repository).
-/

namespace Verif.Replay

/-! ## FastSophiread/tests/test_hit.cpp -/

/-- The hit of test_hit.cpp:43-51. -/
def testHit : Hit := hitGdc 0x0807060504030201#64 8411155#64 2000#64 0

example : testHit.spidertime = 8411156#64 := by decide +kernel
example : testHit.spidertimeNs = F64.ofRat 210278900 := by decide +kernel
example : testHit.tof = some 1#32 := by decide +kernel
example : testHit.tofNs = some (F64.ofRat 25) := by decide +kernel
example : testHit.x = 388 ∧ testHit.y = 56 := by decide +kernel

/-! ## FastSophiread/tests/test_gdc_processor.cpp -/

/-- test_gdc_processor.cpp:13-56; the bytes 5 of the headers are those of a vector filled with zeros. -/
def gdcData : Bytes :=
  let lsb := bytesOf (0x4400000000000000#64 ||| (1987#64 <<< 16) ||| 0xAAAA#64)
  let msb := bytesOf (0x4500000000000000#64 ||| (0x1234#64 <<< 16) ||| 0xAAAA#64)
  [0x54#8, 0x50#8, 0x58#8, 0x33#8, 1#8, 0#8, 16#8, 0#8] ++ lsb ++ msb ++
    [0x54#8, 0x50#8, 0x58#8, 0x33#8, 2#8, 0#8, 16#8, 0#8] ++ lsb ++ msb

example : (match GdcProc.new.processChunk gdcData 0 with
    | .ok r => decide (r.2.map GdcRecord.value = [0x1234000007C3#64, 0x1234000007C3#64] ∧ r.2.map GdcRecord.chip = [1, 2])
    | _ => false) = true := by decide +kernel

/-! ## SophireadLib/tests/test_tpx3.cpp -/

/-- Spider times written by `generate_fake_tpx3_data.cpp:85-204`. -/
def rolloverTimes : List U64 :=
  [0xF000#64, 0xFF00#64, 0xFFFF#64, 0x000F#64, 0x00FF#64, 0x0FFF#64, 0x2FFF#64, 0x000F#64, 0x3FFF#64, 0x00FF#64, 0x0FFF#64,
   0x1FFF#64, 0x2FFF#64, 0x000F#64, 0x00FF#64, 0x0FFF#64, 0x2FFF#64, 0xF000#64, 0xFF00#64, 0xFFFF#64, 0x000F#64, 0x00FF#64,
   0x0FFF#64, 0x1FFF#64, 0x2FFF#64, 0x3FFF#64]

/-- `rollover_test_data.tpx3`. -/
def rolloverFile : Bytes :=
  bytesOf (packDataHeader 0x54#64 0x50#64 0x58#64 0x33#64 0#64 0#64 208#64) ++
    rolloverTimes.flatMap fun t => bytesOf (packPixelHit t 0xFF#64 0x3FF#64 0x3FFF#64 0x9876#64)

/-- test_tpx3.cpp:58-117. -/
example : (match readTimepix3RawData rolloverFile with
    | .ok hs => decide (hs.map (fun h => h.spidertime.toNat) =
        [1006649343, 1069563903, 1073741823, 262143 + 1073741824, 4194303 + 1073741824, 67108863 + 1073741824,
         201326591 + 1073741824, 262143 + 1073741824, 268435455 + 1073741824, 4194303 + 1073741824, 67108863 + 1073741824,
         134217727 + 1073741824, 201326591 + 1073741824, 262143 + 1073741824, 4194303 + 1073741824, 67108863 + 1073741824,
         201326591 + 1073741824, 1006649343, 1069563903, 1073741823, 262143 + 1073741824, 4194303 + 1073741824,
         67108863 + 1073741824, 134217727 + 1073741824, 201326591 + 1073741824, 268435455 + 1073741824])
    | _ => false) = true := by decide +kernel

/-! ## test_centroid.cpp, test_peakfitting.cpp -/

/-- Hits of test_centroid.cpp:46-48. -/
def peakHits : List Hit :=
  [⟨1750, 2038, 2445, 1428, 3989, some 3026#32, 740#64⟩, ⟨3015, 2073, 3212, 718, 2842, some 428#32, 422#64⟩,
   ⟨772, 3912, 3133, 2664, 236, some 3334#32, 3134#64⟩]

/-- `EXPECT_NEAR`. -/
def near (a : F64) (b tol : ℚ) : Bool := match a with
  | .fin q => decide (|q - b| ≤ tol)
  | _ => false

/-- test_centroid.cpp:52-60, test_peakfitting.cpp:36-45 (with the smaller tolerance). -/
example : (match centroidFit true (F64.ofRat 1) peakHits with
    | .ok n => near n.x (186366 / 100) (1 / 100) && near n.y (271874 / 100) (1 / 100) && near n.tof (226267 / 100) (1 / 100)
    | _ => false) = true := by decide +kernel

/-- test_centroid.cpp:62-74. -/
example : (match centroidFit true (F64.ofRat 2) peakHits with
    | .ok n => near n.x (2 * 186366 / 100) (1 / 10) && near n.y (2 * 271874 / 100) (1 / 10) &&
        near n.tof (226267 / 100) (1 / 10)
    | _ => false) = true := by decide +kernel

/-- test_centroid.cpp:76-84, test_peakfitting.cpp:47-57. -/
example : (match centroidFit false (F64.ofRat 1) peakHits with
    | .ok n => near n.x (184567 / 100) (1 / 100) && near n.y (267433 / 100) (1 / 100) && near n.tof (226267 / 100) (1 / 100)
    | _ => false) = true := by decide +kernel

/-! ## SophireadCLI/tests/test_json_config_parser.cpp -/

/-- A decimal number of the configuration. -/
def num (q : ℚ) : Json := .float (F64.ofRat q)

/-- `test_config_uniform.json` (test_json_config_parser.cpp:22-34). -/
def uniformJson : Json := .obj
  [("abs", .obj [("radius", num 6), ("min_cluster_size", .uint 2#64), ("spider_time_range", .uint 80#64)]),
   ("tof_imaging", .obj [("uniform_bins", .obj [("num_bins", .uint 1000#64), ("end", num (167 / 10000))]),
     ("super_resolution", num 2)])]

/-- `test_config_custom.json` (test_json_config_parser.cpp:38-48). -/
def customJson : Json := .obj
  [("abs", .obj [("radius", num 7), ("min_cluster_size", .uint 3#64), ("spider_time_range", .uint 85#64)]),
   ("tof_imaging", .obj [("bin_edges", .arr [.uint 0#64, num (1 / 1000), num (2 / 1000), num (5 / 1000), num (1 / 100),
     num (167 / 10000)])])]

/-- What the getters return. -/
def readings (j : Json) : Res (F64 × U64 × U64 × F64 × List F64) := do
  let c ← JsonConfig.make j
  let r ← c.radius
  let m ← c.minClusterSize
  let t ← c.spiderTimeRange
  let s ← c.superResolution
  let e ← c.binEdges
  .ok (r, m, t, s, e)

/-- test_json_config_parser.cpp:66-82.  `EXPECT_DOUBLE_EQ` allows four units in the last place. -/
example : (match readings uniformJson with
    | .ok (r, m, t, s, e) => decide (r = F64.ofRat 6 ∧ m = 2#64 ∧ t = 80#64 ∧ s = F64.ofRat 2 ∧ e.length = 1001 ∧
        e.head? = some (F64.ofRat 0)) && near (e.getLastD .nan) (167 / 10000) (1 / 10 ^ 17)
    | _ => false) = true := by decide +kernel

/-- test_json_config_parser.cpp:84-99. -/
example : (match readings customJson with
    | .ok (r, m, t, _, e) => decide (r = F64.ofRat 7 ∧ m = 3#64 ∧ t = 85#64 ∧
        e = [F64.ofRat 0, F64.ofRat (1 / 1000), F64.ofRat (2 / 1000), F64.ofRat (5 / 1000), F64.ofRat (1 / 100),
          F64.ofRat (167 / 10000)])
    | _ => false) = true := by decide +kernel

/-- test_json_config_parser.cpp:101-113. -/
example : (match readings (.obj [("abs", .obj [])]) with
    | .ok (r, m, t, s, e) => decide (r = F64.ofRat 5 ∧ m = 1#64 ∧ t = 75#64 ∧ s = F64.ofRat 1 ∧ e.length = 1501 ∧
        e.head? = some (F64.ofRat 0)) && near (e.getLastD .nan) (167 / 10000) (1 / 10 ^ 17)
    | _ => false) = true := by decide +kernel

/-! ## SophireadCLI/tests/test_user_config.cpp -/

/-- test_user_config.cpp:18-29. -/
example : (match UserConfig.default.binning.getBinEdges with
    | .ok e => decide (e.length = 1501 ∧ e.head? = some (F64.ofRat 0)) && near (e.getLastD .nan) (1 / 60) (1 / 10 ^ 17)
    | _ => false) = true := by decide +kernel

/-- test_user_config.cpp:59-71. -/
example : (match (⟨some 1000, some (F64.ofRat 20000), []⟩ : TofBinning).getBinEdges with
    | .ok e => decide (e.length = 1001 ∧ e.head? = some (F64.ofRat 0) ∧ e.getLast? = some (F64.ofRat 20000))
    | _ => false) = true := by decide +kernel

/-- test_user_config.cpp:101-121. -/
example : (match userLines UserConfig.default
      ["# ABS".toList, "abs_radius 20.0".toList, "abs_min_cluster_size 30".toList, "spider_time_range 500".toList] with
    | .ok c => decide (c.radius = F64.ofRat 20 ∧ c.minClusterSize = 30#64 ∧ c.spiderTimeRange = 500#64 ∧
        c.binning = TofBinning.default)
    | _ => false) = true := by decide +kernel

/-- test_user_config.cpp:124-141. -/
example : (match userLines UserConfig.default ["# ABS".toList, "unknown_parameter 123.45".toList] with
    | .ok c => decide (c.radius = F64.ofRat 5 ∧ c.minClusterSize = 1#64 ∧ c.spiderTimeRange = 75#64)
    | _ => false) = true := by decide +kernel

/-! ## SophireadCLI/tests/test_sophiread_core.cpp -/

/-- `generateMockTPX3Data` (test_sophiread_core.cpp:20-42). -/
def mockData (n : Nat) : Bytes :=
  (List.replicate n ([0x54#8, 0x50#8, 0x58#8, 0x33#8, 0#8, 0#8, 8#8, 0#8] ++ List.replicate 8 0#8)).flatten

/-- test_sophiread_core.cpp:88-97. -/
example : (mockData 100).length = 1600 := by decide +kernel
example : (match findTPX3H (mockData 100) with | .ok bs => decide (bs.length = 100) | _ => false) = true := by
  decide +kernel

/-- test_sophiread_core.cpp:99-110: a buffer of the letter T. -/
example : (match locate .gdc (List.replicate 8000 0x54#8) [Batch.new 0 10 0] Clock.zero with
    | .ok r => decide (r.2 = Clock.zero)
    | _ => false) = true := by decide +kernel

/-- A hit of `generateMockTPX3Batches` (test_sophiread_core.cpp:44-70); the subtraction wraps around. -/
example : (hitGdc 0#64 1000#64 2000#64 0).x = 260 ∧ (hitGdc 0#64 1000#64 2000#64 0).y = 0 := by decide +kernel
example : (hitGdc 0#64 1000#64 2000#64 0).tof = some 297482#32 := by
  rw [hitGdc_tof, hitGdc_spidertime]
  obtain ⟨r, h, h1, _, h2, _⟩ := foldTof_spec (2 ^ 32) (rawTof (fixSpider (extendSpider (rawSpider 0#64) 2000#64) 2000#64)
    1000#64) (by have := (rawTof (fixSpider (extendSpider (rawSpider 0#64) 2000#64) 2000#64) 1000#64).isLt; omega)
  rw [h]
  have e : (rawTof (fixSpider (extendSpider (rawSpider 0#64) 2000#64) 2000#64) 1000#64).toNat % 666667 = 297482 := by
    decide +kernel
  exact congrArg some (BitVec.eq_of_toNat_eq (by rw [e] at h2; simp; omega))

/-- Edges of the image tests. -/
def fourEdges : List F64 := [F64.ofRat 0, F64.ofRat (1 / 10), F64.ofRat (2 / 10), F64.ofRat (3 / 10)]

/-- test_sophiread_core.cpp:140-149 and 186-213: the images have 517 rows and columns, and the mock neutrons are counted, in
the first image.  (The images themselves are too large to be computed here.) -/
example : dimOf (F64.ofRat 1) = .ok 517 := by decide +kernel
example : placeEntry (F64.ofRat 1) fourEdges 3 517
    (Neutron.entry ⟨F64.ofRat 260, F64.ofRat 0, F64.ofRat 297482, F64.ofRat 0, 1⟩) = .ok (some (0, 0, 260)) := by
  decide +kernel

/-- test_sophiread_core.cpp:215-228. -/
example : spectralCounts (List.replicate 3 (List.replicate 5 (List.replicate 5 2#32))) = [50#64, 50#64, 50#64] := by
  decide +kernel

/-- test_sophiread_core.cpp:230-252. -/
example : (match spectraRows fourEdges [10#64, 20#64, 30#64] with
    | .ok rows => decide (spectraText rows = "shutter_time,counts\n0.1,10\n0.2,20\n0.3,30\n".toList)
    | _ => false) = true := by decide +kernel

/-! ## SophireadLib/tests/test_tpx3.cpp -/

/-- test_tpx3.cpp:121-135 with resources/data/user_defined_params.txt and user_defined_params_1.txt. -/
example : parseUserDefinedParams (some ("# ABS\nabs_radius 5.0 \t\t\t\t\t# in number of pixels\n" ++
    "abs_min_cluster_size 1  \t\t# in number of pixels\nspider_time_range 75 \t\t\t# in nanoseconds").toList) =
    ⟨F64.ofRat 5, 1#64, 75#64⟩ := by decide +kernel
example : parseUserDefinedParams (some ("# ABS\nabs_radius 20.0 \t\t\t\t\t# in number of pixels\n" ++
    "abs_min_cluster_size 30  \t\t# in number of pixels\nspider_time_range 500000 \t\t\t# in nanoseconds").toList) =
    ⟨F64.ofRat 20, 30#64, 500000#64⟩ := by decide +kernel

end Verif.Replay
