# Formal model of the Timepix3 event pipeline (mcpevent2hist / Sophiread)

## What is here

* `properties.jsonl` - the properties, in words, in terms of the API and its observable effects.
* `lean/Verif/Model/*.lean` - executable model of the code in `/repo`, one definition per function, each
  with a comment citing file and lines.
* `lean/Verif/Spec/*.lean` - the small, separate specification vocabulary used by the theorems. It does
  not use model helpers.
* `lean/Verif/Lemmas/*.lean` - helper lemmas.
* `lean/Verif/Props/*.lean` - the property theorems (names start with the property id, `c01_…`), each with
  an `example` of a concrete non-trivial case that meets its hypotheses.
* `lean/Verif/Replay.lean`, `lean/Verif/ReplayFiles.lean` - the project's own tests, replayed on the model (tests, not proofs). The first
  is checked by the kernel; the second is run by hand on the data files of the repository and takes six minutes: the model finds
  the 81399 batches, 98533 hits and 365 legacy hits that the project's tests expect.
* `MANIFEST.json` - which theorems settle which property, and how far.
* `seeded/LOG.jsonl` - mutation tests of the theorems.  `failed` are the theorems with errors when the changed copy was built.
  `claim_theorems_resting_on_failed` is not observed but computed: the property theorems whose proofs use a failed one, by the dependencies of the
  newest version, so it also names theorems that are younger than the test.  A failed theorem means that its proof no longer checks, which by itself
  does not show that the statement became false.

Suffixes: `_partial` = a weaker statement than the property (what is missing is said beside it);
`_false` / `_witness` = the property as stated is false of the code, with a concrete counterexample.

## Trusted base

1. Lean 4.33's kernel, and the axioms `propext`, `Classical.choice`, `Quot.sound` (nothing else; no
   `sorry`, no own axiom, no `native_decide`, no `bv_decide`).
2. The reading of the C++ source: the model is written by hand from the text; nothing is executed.
3. Platform assumptions (x86-64 Linux, GCC/Clang): little endian, `char` signed with 8 bits,
   `int` 32 bit, `unsigned long`/`unsigned long long`/`size_t` 64 bit. The code reads 16/32/64-bit
   integers through misaligned casted pointers (`hit.cpp:35-37`); the model gives these reads the
   little-endian meaning the platform gives them.
4. Floating point: IEEE-754 binary64, round to nearest even, as the source is written
   (`Model/F64.lean` defines it over the rationals; -0 is identified with 0; C120 proves it against the text of the standard). The build uses
   `-ffast-math` (`sophiread/CMakeLists.txt:62-65`), which permits re-association and lets the compiler
   assume there are no NaNs. Theorems whose intermediate results are all exactly representable
   are insensitive to that; those that rest on NaN behaviour are marked. C116 lists the values that may be computed instead
   for the sums and means of an event, the conditions of the box search, the times and the bin edges, and proves what does and
   what does not depend on the choice.
5. Undefined behaviour is a distinct outcome: out-of-bounds reads and writes, indeterminate values,
   out-of-range floating-to-integer conversions are `Res.ub`/`none`, never a totalised value.

6. Concurrency: threads are interleaved in steps of one access to shared memory, seen by all threads in the same
   order (sequential consistency). For the display program and the streaming program this is an assumption on top of
   C++, since they share plain variables without synchronisation (a data race, formally undefined; C96 exhibits the
   races). For the parallel loop C96 proves that there is no race, and C++ then guarantees sequential consistency.

Every theorem listed in `MANIFEST.json` depends on a subset of the three axioms above (`#print axioms`).

External libraries (HDF5, libtiff, mmap, TBB, Qt, Eigen, mlpack, nlohmann::json, getopt, spdlog) are not
modelled, except for the contract that the code relies on, which is stated in the model file concerned:
a dataset is a growable list, a TIFF file a matrix of 32-bit counts, a file system a finite map,
`tbb::parallel_for` an arbitrary partition with arbitrary interleaving of the steps of its bodies.

## Contracts assumed of libraries

| library | assumed | where |
|---|---|---|
| TBB `parallel_for` | runs the body once on each part of some partition of the range, in any order and interleaving | `Model/Parallel.lean`, `Model/Tiff.lean` |
| libtiff | a file written reads back as the matrix written; opening can fail | `Model/Tiff.lean` |
| HDF5 | groups of named lists; each call may fail; a failed write leaves zeros in new elements | `Model/H5.lean` |
| nlohmann::json | `value` with a pointer: default when absent, exception on wrong kind, `static_cast` between numbers | `Model/Config.lean` |
| nlohmann::json | `operator>>`: one value of RFC 8259, optional byte order mark, nothing after it looked at, last of equal names, numbers as 64-bit integers or finite doubles | `Model/JsonText.lean` |
| iostreams | `operator>>` for numbers as in the standard (failure sets 0 and the fail bit); `read` short at end of file | `Model/Config.lean`, `Model/StreamCli.lean` |
| `std::lower_bound` / `upper_bound` | the libstdc++ halving algorithm (matters for unsorted edges only) | `Model/Image.lean` |
| Eigen solve | a parameter: any function from rows to a pair of doubles | `Model/Peak.lean` |
| mlpack DBSCAN, `std::sort` | parameters; hypotheses are stated in the theorems that need any (`Spec.Dbscan1D`, `Spec.Dbscan2D`, `Spec.SortsByStart`; all three are shown to be satisfiable) | `Model/Dbscan.lean` |
| GNU `getopt` | words reordered, clustered switches, attached and separate values, `--` ends | `Model/Getopt.lean` |
| moodycamel queue | a FIFO with atomic operations | `Model/StreamCli.lean` |
| Qt thread pool | at least two threads (with one, `filetohits` would never start) | `Model/Display.lean` |
| file system | finite map from names to contents; directory listing in any order | `Model/Reducer.lean`, `Model/GdcMain.lean` |
| `find`, `diff -b -s`, `h5diff` | all files below the directory whose name fits; equal up to amounts of blanks; equal data of two HDF5 files, failing on other files | `Model/BenchScript.lean` |

## Modelled code and what is left out

| file in /repo | model | left out |
|---|---|---|
| `FastSophiread/src/hit.cpp`, `include/hit.h` | `Model/Hit.lean`, `Model/Describe.lean` (`toString`) | |
| `FastSophiread/src/tpx3_fast.cpp` | `Model/Tpx3.lean`, `Model/Pipeline.lean` | logging |
| `FastSophiread/src/abs.cpp`, `clustering.h` | `Model/Abs.lean` | printing |
| `FastSophiread/src/centroid.cpp`, `fastgaussian.cpp` | `Model/Peak.lean` | the linear solver (C101 assumes it finds the least-squares solution up to an error) |
| `FastSophiread/src/gdc_processor.cpp`, `SophireadCLI/src/gdc_extractor.cpp` | `Model/Gdc.lean`, `Model/Text.lean` (CSV), `Model/GdcMain.lean` (program) | logging; inputs that are no regular files |
| `FastSophiread/src/disk_io.cpp` | `Model/Reader.lean` (mapped reading), `Model/H5.lean` (HDF5) | `mmap` failures other than on empty files |
| `SophireadCLI/src/sophiread_core.cpp` | `Model/Parallel.lean`, `Model/Cli.lean`, `Model/Image.lean`, `Model/Tiff.lean`, `Model/Text.lean` (spectrum file) | timing output |
| `SophireadCLI/src/sophiread.cpp` | `Model/Cli.lean` (loop), `Model/CliMain.lean` (command line, outputs), `Model/Memory.lean` (failed allocations in the loop) | logging, timing |
| `SophireadCLI/src/json_config_parser.cpp`, `user_config.cpp`, `include/tof_binning.h` | `Model/Config.lean`, `Model/JsonText.lean`, `Model/Image.lean`, `Model/Describe.lean` (`toString`) | |
| `SophireadCLI/src/venus_auto_reducer.cpp` | `Model/Reducer.lean`, `Model/ReducerMain.lean` (command line, exit code) | waiting times, logging |
| `SophireadLib/src/tpx3.cpp:1-635` | `Model/Legacy.lean` | messages |
| `SophireadLib/src/dbscan.cpp` | `Model/Dbscan.lean` | diagnostics |
| `SophireadLib/src/abs.cpp`, `centroid.cpp`, `fastgaussian.cpp` | `Model/LegacyAbs.lean` | printing |
| `SophireadStreamCLI/src/sophiread_stream.cpp` | `Model/StreamCli.lean` | the clustering thread's arithmetic |
| `sophiread_display/*` | `Model/Display.lean` (threads), `Model/DisplayParse.lean` (file), `Model/DisplayWorker.lean` (clusters), `Model/DisplayWindow.lean` (reading and saving) | drawing, labels, spin boxes; `delete` for arrays made with `new[]`; `mycos`, `mysin` are any doubles in [-1, 1] |
| `SophireadGUI/src/mainwindow.cpp` | `Model/Gui.lean`, `Model/GuiFiles.lean` (saved files) | drawing, colours; cosine and sine are parameters |
| `resources/manufacture/tpx3cam.cpp` | `Model/Reference.lean`, `Model/ReferenceText.lean` | messages; a text file that cannot be written |
| `SophireadLib/src/tpx3.cpp:636-801`, end of `sophiread_stream.cpp` | `Model/LegacySave.lean` | failure to close a file, an opening that fails after emptying the file, messages |
| `FastSophiread/benchmarks/benchmark_mmap.cpp` | `Model/Bench.lean` | timers, progress and speeds |
| `benchmark_raw2events.cpp`, `benchmark_raw2hits.cpp` | `Model/SelfCheck.lean`, `Model/Raw2Hits.lean` (threads) | timers |
| `benchmark.sh` | `Model/BenchScript.lean` | files of times and speeds; names of files with blanks |
| `benchmark_hits2events.cpp`, `SophireadLib/benchmarks/benchmark_abs.cpp`, `benchmark_abs_thread.cpp` | `Model/FakeHits.lean` | timers; the random engine: every outcome of the distributions is considered |
| `FastSophiread/tests/test_abs.cpp`, `SophireadLib/tests/test_clustering.cpp` (random hits) | `Model/RandomTests.lean` | messages; the random engine: every outcome of the distributions is considered |
| `scripts/version.sh`, `include/version.h` | `Model/Version.lean` | the text of the usage message and of errors; wildcards in arguments; failures to write; sums from 2^63 on count as errors |
| tests | not modelled, except the generator of test data (`Model/Generator.lean`, `Model/GeneratorMain.lean`) | |

Simplifications that are shared by several files: `int` members whose values are bounded by construction are unbounded
integers (each place says why); allocation does not fail; logging and progress output have no effect; the batch size
`num_packets` counts as the 13-bit value the header can hold.

## How the properties were settled

`MANIFEST.json` has the theorems. Method by area:

| id | modelled code | how |
|----|---------------|-----|
| C01-C03 | `hit.cpp` both constructors, `generate_fake_tpx3_data.cpp` | bit fields to div/mod arithmetic, quadrant map, inverse function |
| C04 | `hit.cpp:43-60` on `BitVec 64` | window theorem where no 64-bit wrap; negation at the ends |
| C05 | `hit.cpp:62-66` incl. binary64 comparison | loop invariant; negation for hits before the trigger |
| C06 | `hit.cpp:115-133`, tof is an `Option` | exact condition; negation |
| C07 | `hit.h` getters in binary64 | exactness of small integers |
| C08-C10 | `tpx3_fast.cpp:343-430` | arithmetic; induction over packet histories |
| C11-C13 | `tpx3_fast.cpp:25-126` | induction over the buffer; negations for header look-alikes, limit 1 and trailing bytes |
| C14-C17,C19,C20 | `tpx3_fast.cpp:187-527` | packet loop as fold with explicit bounds check; refinement to list of packets |
| C18 | `sophiread_core.cpp:121-176` | transition system, invariant over all interleavings |
| C21,C22 | `disk_io.cpp:481-497`, `sophiread.cpp:252-332` | induction on remaining bytes; batch-boundary theorem and negation |
| C23 | `gdc_processor.cpp`, `gdc_extractor.cpp` | refinement to per-word specification; negation for chunk cuts |
| C24-C30 | `abs.cpp` (fast) | invariant over the hit list relating slots and labels |
| C31-C33 | `abs.cpp:126-182`, `centroid.cpp`, `fastgaussian.cpp` | lists, error analysis; Eigen solve is a parameter |
| C34-C38 | `tof_binning.h`, `sophiread_core.cpp:226-485` | search lemmas, commuting increments |
| C39-C41 | `sophiread_core.cpp:495-626` | file system as map, induction over saves; negation for the spectrum file |
| C42-C44 | `disk_io.cpp` HDF5 part | append log; failure points; fresh names |
| C45,C46 | `json_config_parser.cpp`, `user_config.cpp` | functions on JSON trees / token lists |
| C47,C48 | `venus_auto_reducer.cpp` | state machine over poll histories |
| C49-C51 | `SophireadLib/src/tpx3.cpp` | comparison with the fast decoder, induction over histories |
| C52,C53 | `sophiread_stream.cpp` | two-thread transition system |
| C54 | `sophiread_display` | ring buffer refinement to a queue |
| C55 | `dbscan.cpp:183-226` | induction over the sorted interval list |
| C56-C58 | `SophireadLib/src/tpx3.cpp` readers | refinement to the packet list; comparison with the fast parser |
| C59 | `sophiread_stream.cpp` reader | refinement of the read loop over short reads |
| C60-C63 | `dbscan.cpp` | connected components under a contract for mlpack; state machine over calls |
| C64-C66 | `sophiread_display/mainwindow.cpp` | refinement of the byte loop to packets; signed sizes exactly |
| C67-C68 | `sophiread_display/hit_worker.cpp` | refinement of the 128 slots to lists of hits; ranges of sums |
| C69-C71 | `SophireadLib/src/abs.cpp` | the invariant of C24-C30 for any number of slots; simulation between four and eight slots |
| C72-C73 | `SophireadGUI/src/mainwindow.cpp` | state machine over the actions of the user; counting in binary64 |
| C74 | `sophiread.cpp:163-374` | the loop with outputs is the loop of C22 followed by the appends and counts of C35, C39 and C42 |
| C75 | `sophiread.cpp:87-154` | `getopt` as a function on lists of words; inductive grammar of command lines |
| C76 | both `abs.cpp` | invariant: closed clusters have as many rivals as there are slots, open ones are upward closed in start time |
| C77 | `writeSpectralFile`, CSV output of the extractor | formatting with six digits against a separate reader of decimal numbers |
| C78 | `main_gdc_extractor.cpp`, `gdc_extractor.cpp` | case analysis over a file system with aliases and a device of limited size; the loop is the reader of C21 and the records of C23 |
| C79 | `venus_auto_reducer.cpp` | grammar as in C75; state machine of C47 and C48 |
| C80 | `tpx3cam.cpp` | fields of the packet word as arithmetic, induction over the packets, comparison with C16 and C17 |
| C81 | `parseUserDefinedParams` | induction over the lines; the texts that both parsers look at are the same part of the line |
| C82 | `saveHitsToHDF5`, `saveEventsToHDF5` (legacy), `sophiread_stream.cpp` | induction over the library calls; invariant of the two threads; C52, C69 and C33 |
| C83 | both `abs.cpp` | induction over the hits: labels so far are the neutrons so far; C25, C26 and C76 decide the next label |
| C84 | `sophiread.cpp`, `sophiread_core.cpp` | C17 and C22 for the hits of every chunk, C83 for the labels, C31 and C32 for the events, C74 for the files |
| C85 | `benchmark_mmap.cpp` | induction over the rounds and over the cuts of `parallel_reduce`; C22 and C83 for the events |
| C86 | `benchmark_mmap.cpp` | C85 followed by the save functions; case analysis over the endings |
| C87 | `saveEventsToBIN` | monotone rounding at 512 and 513; kernel evaluation of two runs with the same file |
| C88 | `benchmark_mmap.cpp:368-379` | monotone rounding and kernel evaluation at the two ticks around the threshold |
| C89 | `benchmark_raw2events.cpp`, `benchmark_raw2hits.cpp` | C85 for the hits, C44 for the names of files, exact products with 25 |
| C90 | `sophiread.cpp`, `readChunk`, `findTPX3H` | induction over the pieces: what the scan of one piece finds, and what it skips after a cut |
| C91 | both `abs.cpp` | the comparisons with rounded bounds are exact for clear radii, so the loops of the two runs go in step |
| C92 | `Hit::Hit`, `extractHits` | fields of the encoded packets; induction over the signals with the times kept as invariant; C04 to C06 |
| C93 | `sophiread.cpp` | C92 for every chunk, then C74 and C84 |
| C94 | `sophiread.cpp` and what it calls | induction over the pieces of an arbitrary file; a late hit is accepted by no cluster and cannot open one; bounds on the centroid |
| C95 | clustering benchmarks | all draws as parameters; invariant of the clustering loop for bursts of ten hits; cut positions counted |
| C96 | parallel loop, streaming and display threads | accesses of every step listed and proved complete (frame and dependence); happens-before as in the C++ standard; invariants of the ring |
| C97 | text of configuration files | recursive-descent reader proved sound and complete against the grammar of RFC 8259, then composed with C45, C46 |
| C98 | `venus_auto_reducer.cpp` | invariant of the state machine of C47 over poll histories; agreement of two clocks after a global time and a trigger; composed with C35, C47, C84 |
| C99 | `sophiread.cpp`, `venus_auto_reducer.cpp` | composition of C74, C84, C93 for the program and of C93, C98 for the reducer; a run divided into files that start with a clock and a trigger has the same true hits as the whole |
| C100 | `SophireadLib/tpx3.cpp`, `sophiread_stream.cpp`, `gdc_processor.cpp`, `gdc_extractor.cpp` | induction over the signals with the true past as invariant, composed with C56, C57, C59 for the readers and with C23, C78 for the extractor |
| C101 | `FastSophiread/fastgaussian.cpp`, `SophireadLib/fastgaussian.cpp`, both `abs.cpp` | orthogonal projection for the existence of the least-squares solution, strict convexity for its uniqueness, error bounds of the doubles, induction over the labels |
| C102 | `sophiread_stream.cpp`, `SophireadLib/abs.cpp`, `fastgaussian.cpp` | composition of C100 (reader), C52 (batches), C83 (labels), C101 (fits) and C82 (file) |
| C103 | `sophiread_display/mainwindow.cpp`, `hit_worker.cpp` | composition of C64 (reader), C54 (ring), C67 (clusters) and error bounds of the mean; uniqueness of the grouping by induction over the hits |
| C104 | `SophireadGUI/mainwindow.cpp` | composition of C100 (roll-over reader), C83 (clusters), C71 (events) and C73 (picture); the time of flight does not matter for clustering, error bounds of the rotation |
| C105 | `benchmarks/benchmark_mmap.cpp` | composition of C85, C86, C88 (loop, file, bad hits) with C92, C93 (true hits); induction over the readouts for completeness |
| C106 | `SophireadLib/tests/generate_fake_tpx3_data.cpp` main | bit-level lemmas for the fields of the packet; composition with C56, C50 (roll-over reader) |
| C107 | `benchmark_raw2hits.cpp` main with `run_multi_thread` | invariant of the parallel loop (a batch is untouched until its body is done), any partition and interleaving; induction over the words of any file |
| C108 | `sophiread` and `venus_auto_reducer` from words and text to files | composition of C73/C79 (words), C45/C97 (text), C74 (the run ends), C93/C99 (counts), each used as a theorem; bounds on rounded means give that no pixel lies outside |
| C109 | text of `tpx3cam.cpp` | decimal reading of `%.15g` (general precision), rounding errors of the doubles, packets of the signals, simulation for the unset variable |
| C110 | `DetectorCut` | the kept packets are those of the kept signals and perhaps half a clock; the loop of C90 over the readouts of C93; prefix argument for lost pixels |
| C111 | `SplitNeutrons` | renumbering in order of first use, double counting over neutrons and readouts, C110 |
| C112 | `sophiread_display/mainwindow.cpp` | invariant of the window over all events; composition of C54 (ring), C66 (spectrum) and C103; bit patterns of doubles decoded |
| C113 | `SophireadLib/src/dbscan.cpp` | contracts `Dbscan1D`, `Dbscan2D` for mlpack; invariant of the loop over the time clusters; bijection between events and groups; a clustering by connected components meets the contract |
| C114 | `test_abs.cpp`, `test_clustering.cpp` | draws are input; composition of C95 (bursts), C09/C71 (events), C113 and error bounds; negations by evaluation in the kernel |
| C115 | `toString` of hits, neutrons, parameters, configurations | a reader of the texts written down without the model; reading back field by field; six digits as in C77; negations by evaluation in the kernel |
| C116 | `-ffast-math`: `Centroid::fit`, `ABS::fit`, time bins, finiteness tests | inductive relation of the permitted values; sums of small integers are exact in any order; at most three roundings otherwise; negations by evaluation in the kernel |
| C117 | `scripts/version.sh`, `include/version.h` | patterns of `grep` and `sed` as list functions; a line mentions at most one name; induction over series of releases; negations by evaluation in the kernel |
| C118 | `SophireadGUI/src/mainwindow.cpp:196-242` | sessions with a disk by induction, on top of C73 (picture), C82 (HDF5) and C104 (detectors); the cells divide the picture |
| C119 | `FastSophiread/src/tpx3_fast.cpp:28-250`, `SophireadCLI/src/sophiread.cpp` (chunk loop) | on top of the exact result for any bytes (C94): only one chunk of `announced` changes; times carried through, forgotten after a global time and a trigger (C98) |
| C120 | all uses of `double` | the last place of a number, nearest integers, uniqueness of the significand; extended real numbers of Mathlib for infinities |
| C121 | `benchmark.sh`, `benchmark_mmap.cpp` | names of results are different (digits of numbers), C16/C44 for the contents, fold over the runs |
| C122 | `findTPX3H`, constructors, `get_events`, main | counting along the scan, one witness family for sharpness, induction on the rounds |
| C123 | constructors, `appendHitsToHDF5Extendible`, main | the fields of a word determine it, C02 for chip and pixel, C74/C94 for the columns |
| C124 | main, `timedProcessing`, `updateTOFImages` | the outputs of a run as three folds over the batches, C94 for the batches, the solver does not occur |
| C125 | main, `readChunk`, `findTPX3H`, `timedProcessing` | the loop with one failed allocation per round, induction over the rounds, a separate description of what survives of each piece |
| C126 | `updateTimestamp`, `extractHits`, `timedProcessing` | chunks of a divided file are those of its parts; nothing is left of the times before once they are given again; induction over the parts |
| C127 | `initializeTOFImages`, `updateTOFImages` | pixel values as counts of entries that land there (C36), counts over a disjoint union; distance of a double from a half against the rounding error of the product |
| C128 | `ABS::fit`, `ABS::get_events`, `timedProcessing` | the clustering never reads the minimum size; induction over labels, batches and chunks; the files through C74 and C124 |
| C129 | `process_tpx3_packets` in both modes, `Hit` constructors, `main` | induction over the packets with "both trigger times are known or neither is"; the global time stays known once it is; the files through C74 and C94 |

## Disagreements between the code and the properties

Each is a theorem about the model with a concrete witness (`…_false…`, `…_witness`), read off the source, not observed by
running it.

Decoding and clocks
* C03: the mask of the test generator for the fine ToA is eight bits wide, the field four; larger values spill into the ToT.
* C04: with a small global time the extended clock underflows to almost 2^64; at the upper end the 48-bit wrap is not followed.
* C05: a hit before its trigger gets a time of flight that is off by 298482 ticks, since the 32-bit difference wraps.
* C06: without a global clock the time of flight of some hits is never written: all of them from 2^31 ticks (53.7 s) of
  trigger time on, and those shortly before the trigger.
* C09: a trigger that steps back, or a gap of 2^31 ticks or more past a roll-over, is extended wrongly.
* C12: an ordinary hit packet can start with the bytes that mark a header, and the scan then reports a chunk that does not exist.
* C13: with limit 1 an empty chunk is scanned for ever, and with any limit so is a buffer whose length is not a multiple of 8.
* C14: a buffer that ends inside a packet is read past its end.
* C19: extracting a batch twice doubles its hits.
* C22: for every chunk size there is a file of which a hit is lost at the cut; the argument 2^44 of `-c` means size 0, and
  nothing is processed.
* C23: a cut between header and time loses the record; times of zero and chip ids of 128 or more are not reported.

Events and images
* C24: the underflowing times of C04 are then converted from `double` to a 64-bit integer that cannot hold them, if such a hit
  opens a cluster (`c24_early_undefined`).
* C31: a cluster of hits with ToT 0 gives no event.
* C76: of open clusters with equal start times the first slot is given up again and again, so with nine or more neutrons in one
  tick the one started last but one is closed (`c76_false_ties`).
* C33: when all ToT are equal no hit is used and the time of flight is not a number (`c33_no_hits_used`).
* C35: an entry exactly on the first edge is not counted; with edges from 0 these are all entries of time 0.
* C36: a coordinate whose multiple by the super resolution is beyond `int` is undefined (`c36_overflow`).
* C38: without batches the one-shot images have no rows, the incremental ones have 517; saving the former is an invalid read
  (`c39_empty_images`).
* C39: an image of another size overwrites what was accumulated; an interrupted save loses counts.
* C40: the images accumulate over saves, the spectrum file does not.
* C77: times are printed with six digits, so with a million bins neighbouring bins get the same time.

Output and configuration
* C43: a failure from the second column on leaves columns of different lengths, which no later append repairs.
* C44: the stamp in the name is only the microsecond part of a second, so a save in another second can hit the same name and
  destroys the earlier file.
* C45: an empty edge list gives 1500 bins up to 1/60 s whatever else is configured; negative sizes wrap.
* C46: time-of-flight settings in the text format have no effect; a missing value is indeterminate, a malformed one 0.
* C47: a file that cannot be opened ends the reducer; a file without headers makes it read outside images.
* C48: files that arrive with the end marker, or before the start together with it, are never processed; files still growing
  are read once only.

Legacy library
* C49: `packetToHit` converts a negative double to `unsigned int` for hits before the trigger. Its correction of the time of
  flight is 16666667, which is nanoseconds where ticks are meant.
* C51: a file that ends within a word or a batch makes the readers read outside.
* C57: the legacy parser keeps hits before the first trigger, the fast one drops them.
* C58: `fastParseTPX3Raw` returns default hits only.
* C61, C62: labels survive `reset`, and `get_events` returns the events of an earlier call.
* C63: only the 14-bit ToA is used, so hits any number of periods apart can be one event, whose time of flight is the mean ToA
  in nanoseconds (and is multiplied by 25 once more by its getter).
* C55: `mergeTimeClusters1D` on no clusters reads the first of none (`fit` does not call it so).
* C70: with four slots instead of eight, five neutrons at the same time are split by the legacy library.
* C71: `get_events` for no hits reads the end of an empty vector.

Command line program as a whole
* C74: an exception while a column of the hits is extended is logged and dropped, so the program returns 0 with columns of
  different lengths. The same failure for the neutrons, or for any group, escapes: `H5::Exception` is not derived from
  `std::exception`, no handler names it, the process is terminated and the images are never written. Giving the input file as an
  output truncates it while it is mapped; giving one file for hits and neutrons ends the program the same way.
* C75: `-c` takes `5GB` as 5 megabytes, `-1` as nearly 2^64 bytes, and 0, with which nothing is read and 0 is returned. A
  forgotten value takes the next option as the value. Words without a dash are dropped.

The other command line programs
* C78: the output is truncated before the input is opened, so naming the input as the output destroys it, and an empty input cuts an existing output. Failed writes are only
  looked for as exceptions, which the stream does not throw: a full device gives a cut file and code 0. A size that is not allowed
  is refused after the output file has been made.
* C79: `-c 5min` is five seconds. Code 0 is returned also when every file failed.

Graphical program
* C72: the timer starts before the dialog's answer is looked at, so after one cancelled dialog the program neither reads nor
  saves any more. A file without hits is undefined behaviour (C71). Choosing a file for the events before reading throws out
  of a slot; a picture file that cannot be opened is written to through a null pointer.
* C73: the picture accumulates over files, the saved events are those of the last file. Events turned out of the frame are not
  shown, and so are none at positions from 512 on, though the detector has 516 columns. A comment at `DSCALE` says 8 x 8, the value is 1.

Streaming and display
* C52: the last incomplete batch of 10000 hits can be thrown away. C53: a file that cannot be opened makes the program spin
  for ever. C59: after the last word the array is looked at once more, uninitialised or with the packet before.
* C54: the timer stops the consumer while hits wait in the ring.
* C64: sizes are assembled from signed chars, so chunks of n packets lose 32 if n % 32 >= 16, and all if n >= 4096. Short reads
  show the last packet again.
* C66: the region of the time-of-flight histogram is tested in coordinates of the chip, not of the picture.
* C67: open clusters are never flushed, so a file of up to 127 hits shows nothing; clusters turned out of the picture are dropped.
* C68: `runningX` can overflow at 4109 hits in one cluster; eleven hits of ToT 0 give 0/0 converted to `int`.

Neutrons
* C83: only eight clusters are open. Nine neutrons at once whose hits alternate fall apart into single hits.
* C90: packets after a cut have lost their header and are skipped, up to 8191 for every cut; triggers among them are missed too, so
  later hits may be dated with an older trigger.
* C84: clusters end with the chunk of the detector, so a neutron with hits in two chunks is counted twice.
* C91: with a radius just below a whole number the same pair of hits is one cluster at one place and two at another.
* C92: without the global clock no time of flight is found from 53.7 s after the start on. With it, a pixel more than 1 s after the last
  clock is dated 26.8 s too early, and one more than 16.67 ms after its trigger gets the remainder modulo 666667 as its time of flight.
* C93: a pixel with upper time bits 0x5054, fine time 8 and time over threshold 5 modulo 16 is also taken for a header; the pixels after
  it are counted twice.
* C94: the behaviour is undefined for a hit a second or more after the global time in the first 26.8 s after the start, without the
  global clock for a hit up to 0.1 s before its trigger, and for a file cut inside a packet.

Manufacturer's program
* C80: it takes every packet of type 6 as a trigger, also falling edges and the second input; the decoders of this repository only
  those with type byte 0x6F. Its correction of `Timer_MSB16` has no effect, since the variable is overwritten before it is
  read again, but reads `spidrTime` before the first hit has set it. Files with extra bytes are read beyond the array.

Legacy parameters and output
* C81: values that are no numbers count as 0 and negative ones wrap modulo 2^64, without a message. The two text parsers differ from
  2^31 on, and for a name without a value.
* C82: an interrupted save leaves an incomplete file in place of the old one. The streaming program can lose up to 9999 hits
  (C52), so that a small file may give no output; with no events it ends with an uncaught exception after all the work.

Memory-mapped program
* C85: `n_events` grows by all events so far in every round of 100000 batches, so the report is too high for larger files. Without the
  option `tgdc`, which is off by default, every chunk starts from time 0 and hits of chunks without a trigger are lost.
* C86: the time of flight in ns is multiplied by 25 once more when it is written. Text is appended, header and all, to what earlier
  runs wrote. Other endings are accepted, nothing is written and the exit code is 0.
* C87: the binary file is decimal text without separators, so different events can give the same file. A coordinate of 512.0078 or more
  is an undefined conversion to `uint16_t`; the columns 513 to 515 exist.
* C88: milliseconds are compared with seconds, so at 60 Hz every hit from 667 ticks (16.7 us) on counts as bad.
* With `mmap` a failing call gives `MAP_FAILED`, which is tested against `nullptr`; the program reads from it.

Self-check
* C89: `saveHitsToHDF5` never overwrites, so from the second run on the program compares the new hits with the file of the first run.
  Without hits nothing is saved and opening the file throws. `check_bad_tof` has the limit of the loop that folds the times of
  flight, so it can never find anything. `benchmark_raw2hits` locates no timestamps and loses the hits of chunks without a trigger.
* C95: a first arrival time drawn as exactly -1 becomes 2^64 - 1 and makes `fit` undefined. Ten hits drawn without charge give no event.
  Threads whose pieces are not a multiple of ten hits cut clusters in two (7 threads find 12000006), and more threads than hits read
  an empty vector.
* C96: `done` of the streaming program is a plain `bool`: every run that ends has read it while it was written, without order, which
  is undefined. `pi`, `ci`, `fileparsedone`, `killthread` of the display are plain `int`s with the same effect, and the slots race too.
* C97: text after the first JSON value of a configuration file is ignored (`c97_false_trailing`): a brace too many silently drops
  the sections after it. A JSON file whose name does not end in `.json` (for instance `.JSON`) is read line by line in the old
  format and gives the old defaults, without an error (`c97_false_extension`); these have 1/60 s instead of 16.7 ms as the end of
  the bins. The automatic reducer does not read the old format (`c97_false_reducer_old`).
* C98: the reducer carries the trigger and global times from file to file within a poll and resets them in every poll. Hits of a file
  that does not begin with its own timestamps are counted when it is found in the same poll as its predecessor and lost when it is
  found later (`c98_false_polls`).
* C99: a run of the detector whose files do not each start with a clock and a trigger loses hits in the images of the reducer
  (`c99_false_undated`). Pixels near the right and lower border fall outside the images because positions are rounded (see C35).
* C100: the older readers extend the 30-bit time of a pixel forward from the last clock only, so a pixel that fires before a clock and
  is sent after it is dated 26.8 s too late (`c100_false_before`); `readTimepix3RawData` ignores the triggers in the file and counts the
  time of flight from multiples of 666667 ticks (`c100_false_period`).
* C101: `FastGaussian::fit` subtracts the median before it takes the logarithm, so signals that lie exactly on a Gaussian are not fitted
  exactly: nine hits of a peak in the corner of the detector are put half a pixel off (`c101_false_corner`). The comment in the source
  that the result lies within one pixel of the centroid for more than ten hits is false: twelve hits of one cluster give an event more
  than four pixels from each of them (`c101_false_far`). Hits in a single row leave the system singular (`c101_row`), and the place
  across the row is then up to the solver.
* C102: whether a bright neutron of the detector reaches `events_streamed.h5` depends on the interleaving of the threads (`c102_false`).
* C103: the display counts no neutron among the last 127 (`c103_false_few`), so a short file shows nothing, and the time of flight of a
  pixel after a turn of the 30-bit clock is 3 * 2^30 ticks too long (`c103_false_turn`).
* C104: the picture of the viewer has 512 columns, the detector 516, so neutrons at the far edge are events but are not shown
  (`c104_false_edge`); their times of flight count from multiples of 666667 ticks (`c104_false_tof`).
* C105: without the option `tgdc` the memory-mapped program dates every readout from its own clocks and triggers only, so that readouts
  without them give nothing (`c105_alone`, `c105_false_alone`); a neutron over two readouts counts twice (`c105_false_split`).
* C106: the generator masks the fine counter with eight bits instead of four, so that a larger one changes the time over threshold
  (`c106_false_ftoa`; its own packets have all those bits set), and it does not notice a full disk (`c106_false_room`).
* C107: both numbers of `benchmark_raw2hits` agree always, but neither is the number of pixels that fired: a readout without its own clock
  and trigger counts for nothing (`c107_false_detector`).
* C109: the manufacturer's program empties `converted.txt` before it opens its input (`c109_false_name`).  It uses `spidrTime` before it is
  set when a clock comes before the first hit (undefined in C++, C80); only `Timemaster_msb` depends on it, which is never printed.
* C110: when the cut between two pieces loses a trigger, all hits up to the next trigger get the flight time from the trigger before
  (`c110_false_trigger`); a lost pixel only loses that hit (`c110_prefix`).
* C111: clusters never continue from one readout to the next, so the number of events is at least the number of neutrons, and larger
  exactly when a neutron leaves marks in two readouts (`c111_once_iff`).
* C112: the display program saves a spectrum that was never set if nothing has been read yet (`mytofhisto` is made by `new unsigned int[...]` and first set to zero in `handlereadfile`; the picture is zero then). It checks neither `fopen` nor `fwrite`: a name that cannot be opened is undefined behaviour, a full disk leaves a short file. `delete` is used for `myhits`, `mytofhisto`, `swaphisto` and `myclusters`, which are made with `new[]`; this is undefined in C++ and is taken here for `delete[]`.
* C113: the time of an event found by DBSCAN is the mean over all hits of its time cluster, so two neutrons at different places that are
  connected in time get the same time.
* C114: the unit tests with random hits do not check the number of events before they read the first three: `EXPECT_EQ` goes on after a
  failure. If a cluster draws no charge, or the times of arrival have a gap of more than 8000 ns, they read behind the vector
  (`c114_false_charge`, `c114_false_gap`). A draw just below one is rounded up to the next pixel (`c114_false_edge`).
* C115: the texts of neutrons leave out the charge and give six digits; of custom bins only the number is told (`c115_false_neutron`,
  `c115_false_settings`). An old-format configuration whose number of bins is not set says `TOF binning not set`, but 1500 bins are
  used (`c115_false_unset`); no file leads to such an object, only a caller that makes it. The text of a hit without a time of flight reads a value that was never
  set (`c115_hit_undefined`).
* C116: which bin a time at an edge gets and which pixel a mean at half a pixel gets depend on the compiler (`c116_false_bin`,
  `c116_false_pixel`): with the default bins, 0.1 ms lies at an edge. The test for NaN may be removed; then an event without charge is
  converted to an undefined pixel number (`c116_false_nan`).
* C117: the script reads all digits of the line of a definition and every name that starts like one of the three (`c117_false_remark`,
  `c117_false_prefix`); a release that fails has already changed the file. `[ \t]` is a tab for `sed` and the letter t for `grep`
  (`c117_false_tab`). The changelog of the repository is empty, so that `check` always fails (`c117_false_changelog`).
* C118: one name for both files loses the picture (`c118_false_same`); saving without events ends the program with an exception after the
  picture is written (`c118_false_empty`), and so does a failing HDF5 call, which also loses the earlier file (`c118_false_fault`). A full
  disk cuts the picture short without notice (`c118_false_full`); a picture file that cannot be opened is undefined behaviour
  (`c118_false_unopened`).
* C13: a header that announces packets beyond the next header makes the limited scan differ from the whole one (`c13_false_overrun`).
* C119: a damaged packet or size that makes a false header counts hits twice (`c119_false_lookalike`, `c119_false_size`); one byte lost
  hides all that follows (`c119_false_shift`); with the triggers alone a wrong trigger puts all later ones a round of the counter off, for
  ever (`c119_false_heals`), and no later hit has a time of flight (`c119_false_untimed`, `c119_false_trigger`).
* C121: the verdict of `benchmark.sh` looks at files, not at runs: text files of an earlier benchmark with fewer repetitions are continued, and
  all new ones are reported as different (`c121_false_more`); old equal files hide that nothing could be read (`c121_false_stale`) or that half of the runs failed
  (`c121_false_readonly`); equal files are not the right events (`c121_false_right`).
* C122: a file whose words are headers and hit packets at once is decoded again from each of its words: hits come out at up to 6143 per word
  (`c122_false_words`, `c122_sharp`), so that a file of one megabyte gives more than 700 million hits, each kept in memory.
* C123: a header that names a chip other than 0 to 3 is read as chip 3, and its packets are written with the pixels of that chip (`c123_false_chip`).
* C124: the outputs of a run are not independent when one fails: an HDF5 exception from the file of hits ends the process before the neutrons of the batch
  are written (`c124_false_failure`); a hit without a time of flight is harmless until the file of hits reads it (`c124_false_defined`).
* C125: the loop of the program catches `std::bad_alloc` and goes on.  `readChunk` has not moved on then, so a chunk that cannot be allocated is tried for
  ever (`c125_false_ends`).  After a failed search for batches the chunk is skipped with its timestamps, and hits of later chunks are lost
  (`c125_false_find`).  After a failure in the output the files disagree (`c125_false_agree`).  In the last two cases the exit code is 0.
* C126: each run starts with all times 0 and does not say so.  A part of a measurement that begins between the two halves of the global time takes 0 for the
  lower half and gives its hits other times of flight (`c126_false_half`).  In trigger-only mode it is the other way round: the joined file is the one that
  goes wrong after the counter has begun a new round (`c126_false_round`).
* C127: pixels are rounded to the nearest, so pixel 0 of an image is half as wide as the others and the pixels at super resolution `m` lie around `m k`.
  With even `m` the pixel half way belongs to two pixels of the coarser image: binning a super-resolved image by 2 does not give the plain image
  (`c127_false_even`).  Hits only ever fill every `m`-th row and column (`c127_hits`).
* C128: a cluster's time is that of its first hit and hits go to the first cluster that takes them.  A greater radius or time range can therefore move a
  hit to an older cluster, leave later hits without one and give more neutrons (`c128_false_radius`, `c128_false_range`).
* C129: zero stands for "no trigger yet".  A trigger whose counter reads zero is therefore lost without the global clock, and with it the hits until the
  next trigger (`c129_false_zero`).  Without the global clock, hits on either side of a round of the 30-bit clock are 26.8 s apart (`c129_false_times`).
