{"id": "C01", "title": "Decoded pixel coordinates stay on the detector", "statement": "For every 8-byte hit packet, every trigger/global timestamp and every chip id, the Hit built from it has getX() and getY() in 0..515; for chip ids 0..3 the 4-pixel gap between chips (256..259) is never produced, and each chip only produces its own quadrant.", "quantifier": "all 2^64 packet words, all timestamps, all int chip ids, both Hit constructors", "why_tests_cant": "2^64 packets times all chip ids; a test checks a handful of addresses and an overlap at one address corrupts images silently.", "anchors": ["sophiread/FastSophiread/src/hit.cpp: Hit::Hit", "sophiread/FastSophiread/include/hit.h: getX, getY"]}
{"id": "C02", "title": "Pixel address to coordinate mapping is one-to-one and onto", "statement": "Two hit packets decoded for chips in 0..3 get the same (x, y) if and only if they carry the same chip and the same 16-bit pixel address, and every coordinate of the four quadrants is reached by some packet.", "quantifier": "all pairs of packets and chips in 0..3, all quadrant coordinates", "why_tests_cant": "Injectivity ranges over 2^36 pairs and says something about all of them at once.", "anchors": ["sophiread/FastSophiread/src/hit.cpp: Hit::Hit"]}
{"id": "C03", "title": "Packet fields decode to what was encoded", "statement": "For every choice of field values within their widths (spider time 16 bit, fine ToA 4, ToT 10, ToA 14, pixel address 16), decoding the packet assembled from them by the project's packet generator returns exactly these values as getTOT, getFTOA, getTOA and pixel position, and the packet is recognised as a hit packet.", "quantifier": "all field values in range", "why_tests_cant": "Round trips over the whole 60-bit field space; tests use one packet.", "anchors": ["sophiread/FastSophiread/src/hit.cpp: Hit::Hit", "sophiread/SophireadLib/tests/generate_fake_tpx3_data.cpp: packPixelHit, packDataHeader"]}
{"id": "C04", "title": "Arrival time is the right extension of the 30-bit clock (global-clock mode)", "statement": "With a global timestamp G below 2^48, getSPIDERTIME() is the unique time that agrees with the packet's 30-bit clock modulo 2^30 and lies in the window [G - 2^30 + 4e7, G + 4e7) (hits no more than about 1 s after, about 25.8 s before, the global timestamp).", "quantifier": "all packets and all 48-bit global timestamps", "why_tests_cant": "Roll-over happens every 26.8 s at arbitrary phases; near-zero and near-2^48 timestamps underflow only in corner cases no recorded test file hits.", "anchors": ["sophiread/FastSophiread/src/hit.cpp: Hit::Hit (GDC constructor)"]}
{"id": "C05", "title": "Time of flight is bounded and congruent to arrival minus trigger (global-clock mode)", "statement": "For every packet and timestamps, building the Hit terminates, getTOF()*25 ns never exceeds 16.67 ms, and getTOF() equals arrival minus trigger up to a whole number of 666667-tick (60 Hz) periods.", "quantifier": "all packets, all trigger and global timestamps", "why_tests_cant": "The folding loop is run on one value in tests; wrap-around for hits that precede the trigger changes the residue and is visible only for particular orders of packets.", "anchors": ["sophiread/FastSophiread/src/hit.cpp: Hit::Hit (GDC constructor)", "sophiread/FastSophiread/include/hit.h: getTOF, getTOF_ns"]}
{"id": "C06", "title": "Time of flight is always determinate (trigger-only mode)", "statement": "For every packet and trigger timestamp, a Hit built without global timestamp has a defined getTOF() equal to arrival minus trigger.", "quantifier": "all packets and trigger timestamps", "why_tests_cant": "An uninitialised field reads as any value, so a test may pass by accident; whether the field is written depends on the relation of two counters.", "anchors": ["sophiread/FastSophiread/src/hit.cpp: Hit::Hit (TDC-only constructor)"]}
{"id": "C07", "title": "Times in nanoseconds are exact", "statement": "getTOF_ns, getTOA_ns, getTOT_ns and getSPIDERTIME_ns return exactly 25 times the tick count and getFTOA_ns exactly 25/16 times, with no rounding, for every decoded value (arrival times below 2^48).", "quantifier": "all values of the integer fields", "why_tests_cant": "Floating-point rounding only shows for particular magnitudes.", "anchors": ["sophiread/FastSophiread/include/hit.h: get*_ns"]}
{"id": "C08", "title": "Trigger time is the first time at or after the global clock that matches the packet", "statement": "In global-clock mode, after a trigger (TDC) packet the trigger timestamp is the unique value congruent to the packet's 32-bit counter modulo 2^32 lying in [G, G + 2^32), reduced modulo 2^48, where G is the current global timestamp.", "quantifier": "all TDC packets and all global timestamps", "why_tests_cant": "The carry happens once in 107 s and at the 48-bit wrap only.", "anchors": ["sophiread/FastSophiread/src/tpx3_fast.cpp: update_tdc_timestamp (GDC overload)"]}
{"id": "C09", "title": "Trigger counter roll-over is followed without error (trigger-only mode)", "statement": "For every sequence of true trigger times that never steps by 2^31 ticks or more and stays below 2^48, feeding the corresponding 32-bit TDC packets one after another reconstructs every true trigger time.", "quantifier": "all non-decreasing trigger histories of any length", "why_tests_cant": "Needs histories longer than 107 s with every possible phase of the roll-over.", "anchors": ["sophiread/FastSophiread/src/tpx3_fast.cpp: update_tdc_timestamp (TDC-only overload)"]}
{"id": "C10", "title": "Global timestamp is assembled from its two halves and never invalid", "statement": "After a low-half packet and a high-half packet the global timestamp is high*2^32+low; an all-zero result is ignored; over any packet history started from a valid state the global timestamp stays below 2^48, never returns to zero once non-zero, and is changed by no other packet type.", "quantifier": "all packet histories", "why_tests_cant": "History property over any interleaving of packets.", "anchors": ["sophiread/FastSophiread/src/tpx3_fast.cpp: update_gdc_timestamp_and_timer_lsb32, process_tpx3_packets"]}
{"id": "C11", "title": "Header scan finds exactly the 8-byte-aligned chunk headers", "statement": "findTPX3H returns one batch for each 8-byte-aligned complete word of the buffer that starts with the bytes 'TPX', in increasing offset order, carrying that word's offset, its packet count (size/8) and its chip id, and nothing else; the buffer is never read past its end.", "quantifier": "all byte buffers of any length", "why_tests_cant": "All buffer contents and lengths, including lengths that are not a multiple of 8.", "anchors": ["sophiread/FastSophiread/src/tpx3_fast.cpp: findTPX3H"]}
{"id": "C12", "title": "Only real chunk headers are taken as headers", "statement": "For every well-formed stream (headers each followed by the number of packets they announce), the batches found are exactly the stream's chunks: no data packet is mistaken for a header.", "quantifier": "all well-formed packet streams", "why_tests_cant": "The collision needs a data packet whose low three bytes spell 'TPX'; rare in short test data, common in hours of beam time.", "anchors": ["sophiread/FastSophiread/src/tpx3_fast.cpp: findTPX3H"]}
{"id": "C13", "title": "Batch-limited scan makes progress and loses nothing on resumption", "statement": "Calling findTPX3H with a batch limit repeatedly, each time continuing at the reported number of consumed bytes, always advances, ends, and together extracts the same packets as one unlimited scan.", "quantifier": "all buffers, all batch limits >= 1", "why_tests_cant": "Termination and coverage over all cut positions; tests use one limit on one file and need the loop to end.", "anchors": ["sophiread/FastSophiread/src/tpx3_fast.cpp: findTPX3H (consumed overload), _get_max_batch_len", "sophiread/FastSophiread/tests/test_tpx3.cpp: TestExtractHits_large"]}
{"id": "C14", "title": "Packet processing never reads outside the buffer", "statement": "For every buffer and every batch returned by the header scan of that buffer, updateTimestamp and extractHits (with and without global clock) read only bytes of the buffer, even if the announced packet count runs past the end.", "quantifier": "all buffers of any length, all announced sizes", "why_tests_cant": "Out-of-bounds reads of a few bytes usually go unnoticed at run time.", "anchors": ["sophiread/FastSophiread/src/tpx3_fast.cpp: process_tpx3_packets, extractHits, updateTimestamp"]}
{"id": "C15", "title": "No hit before the first trigger", "statement": "No hit is produced from packets that precede the first trigger packet (and, in global-clock mode, before both a trigger and a complete global timestamp were seen): starting from zero timestamps, a stream without trigger packets yields no hit at all.", "quantifier": "all packet streams", "why_tests_cant": "Holds along every history, not for a sampled one.", "anchors": ["sophiread/FastSophiread/src/tpx3_fast.cpp: process_tpx3_packets"]}
{"id": "C16", "title": "Every hit packet becomes exactly one hit, in order", "statement": "Once timestamps are valid, the hits of a batch are, in order, exactly one per hit packet in the batch that lies completely in the buffer, each decoded with the timestamps in force at that packet; other packets produce none; earlier hits of the batch stay untouched.", "quantifier": "all buffers, batches and starting timestamps", "why_tests_cant": "Order and completeness over arbitrary packet mixes.", "anchors": ["sophiread/FastSophiread/src/tpx3_fast.cpp: process_tpx3_packets, extractHits"]}
{"id": "C17", "title": "Two-phase extraction equals one sequential pass", "statement": "Locating start timestamps for all batches first and then extracting every batch independently gives the same hits as one sequential pass over all packets carrying the timestamps along.", "quantifier": "all buffers, all start timestamps, both clock modes", "why_tests_cant": "It is the correctness argument for parallelisation; one file cannot establish it.", "anchors": ["sophiread/FastSophiread/src/tpx3_fast.cpp: updateTimestamp, extractHits", "sophiread/SophireadCLI/src/sophiread_core.cpp: timedLocateTimeStamp, timedProcessing"]}
{"id": "C18", "title": "Parallel processing is schedule independent", "statement": "timedProcessing stores in every batch the same hits and neutron events whatever partition of the batches into ranges and whatever interleaving of the worker steps the task scheduler picks; equal to processing the batches one after another with a fresh clustering object each.", "quantifier": "all partitions, all interleavings, all batches", "why_tests_cant": "Schedules cannot be enumerated by running the program.", "anchors": ["sophiread/SophireadCLI/src/sophiread_core.cpp: timedProcessing", "sophiread/FastSophiread/src/abs.cpp: ABS::fit, reset, get_events"]}
{"id": "C19", "title": "Extracting a batch leaves it consistent; repeating it does not duplicate", "statement": "After extractHits the batch's stored timestamps equal the start timestamps of the following batch, and extracting the same batch a second time does not change its hits.", "quantifier": "all buffers, batches, start timestamps", "why_tests_cant": "Needs equality for all histories; no test calls it twice.", "anchors": ["sophiread/FastSophiread/src/tpx3_fast.cpp: extractHits", "sophiread/FastSophiread/include/tpx3_fast.h: TPX3"]}
{"id": "C20", "title": "Unknown packets are ignored", "statement": "Packets whose type is neither hit, trigger nor global time change neither the timestamps nor the hits: replacing any such packet by any other such packet gives identical results.", "quantifier": "all streams, all positions, all unknown packet words", "why_tests_cant": "All 64-bit words of the remaining types.", "anchors": ["sophiread/FastSophiread/src/tpx3_fast.cpp: process_tpx3_packets"]}
{"id": "C21", "title": "Chunked reading returns the file exactly once", "statement": "Repeatedly calling readChunk with any positive chunk size (which may vary) until it returns nothing yields chunks whose concatenation is the file, ends after finitely many calls, never returns an empty chunk before the end, and isEOF is true exactly at the end.", "quantifier": "all file contents and all positive chunk sizes", "why_tests_cant": "All sizes and remainders.", "anchors": ["sophiread/FastSophiread/src/disk_io.cpp: TPX3FileReader::readChunk, isEOF, getTotalSize"]}
{"id": "C22", "title": "Results do not depend on the chunk size", "statement": "Processing a file chunk by chunk gives the same hits as processing it in one piece, for every chunk size.", "quantifier": "all files, all chunk sizes", "why_tests_cant": "Loss occurs only for hits straddling a cut; single-chunk test files never show it.", "anchors": ["sophiread/SophireadCLI/src/sophiread.cpp: main", "sophiread/FastSophiread/src/tpx3_fast.cpp: findTPX3H"]}
{"id": "C23", "title": "The GDC extractor reports every global time packet with its position", "statement": "The records of GDCProcessor over a file are one per high-half global-time packet that follows a chunk header, in file order, with strictly increasing 8-aligned offsets inside the file and timestamps below 2^48; they do not depend on how the file is cut into chunks.", "quantifier": "all files and all cuts into chunks", "why_tests_cant": "All cut positions.", "anchors": ["sophiread/FastSophiread/src/gdc_processor.cpp: GDCProcessor::processChunk", "sophiread/SophireadCLI/src/gdc_extractor.cpp: GDCExtractor"]}
{"id": "C24", "title": "Every hit gets a cluster label; labels have no gaps", "statement": "After ABS::fit(hits) there is one label per hit, none is -1, and the labels used are exactly 0..k-1 for some k; the first occurrence of each label comes after the first occurrences of all smaller labels.", "quantifier": "all hit sequences, radii and time ranges", "why_tests_cant": "All sequences of any length, including more than 8 simultaneous clusters.", "anchors": ["sophiread/FastSophiread/src/abs.cpp: ABS::fit", "sophiread/FastSophiread/include/abs.h: get_cluster_labels"]}
{"id": "C25", "title": "Hits in one cluster are close in time", "statement": "Two hits with the same label differ in arrival time by at most twice spider_time_range, and each differs from the first hit of its cluster by at most spider_time_range.", "quantifier": "all hit sequences with arrival times below 2^48, all ranges", "why_tests_cant": "Invariant over unbounded sequences with slot recycling.", "anchors": ["sophiread/FastSophiread/src/abs.cpp: ABS::fit"]}
{"id": "C26", "title": "Hits in one cluster are spatially connected", "statement": "Each hit of a cluster except its first lies within the search radius (in x and in y) of the bounding box of the cluster's earlier hits: exactly for radii that are multiples of 1/1024 pixel, up to a rounding of 2^-32 pixel for any other radius.", "quantifier": "all hit sequences and radii", "why_tests_cant": "Invariant over unbounded sequences.", "anchors": ["sophiread/FastSophiread/src/abs.cpp: ABS::fit"]}
{"id": "C27", "title": "Clustering is deterministic and history independent", "statement": "The labels after fit(hits) depend only on the hits and the parameters, not on what the ABS object was used for before, with or without reset().", "quantifier": "all object histories", "why_tests_cant": "All previous uses of the object.", "anchors": ["sophiread/FastSophiread/src/abs.cpp: ABS::fit", "sophiread/FastSophiread/include/abs.h: reset"]}
{"id": "C28", "title": "Clustering is online", "statement": "The label of a hit never depends on later hits: the labels of a prefix of the hit list are the prefix of the labels.", "quantifier": "all hit sequences and all prefixes", "why_tests_cant": "All extensions.", "anchors": ["sophiread/FastSophiread/src/abs.cpp: ABS::fit"]}
{"id": "C29", "title": "Well separated bursts are recovered exactly", "statement": "If the hits form consecutive bursts, each burst internally within range of its first hit and within the radius of its growing box, and hits of different bursts are further apart in time than the range, then two hits share a label if and only if they are in the same burst.", "quantifier": "all such hit sequences with any number of bursts", "why_tests_cant": "Any number of bursts, beyond the eight open slots.", "anchors": ["sophiread/FastSophiread/src/abs.cpp: ABS::fit"]}
{"id": "C30", "title": "Event building reports misuse instead of misreading", "statement": "get_events throws if the number of labels differs from the number of hits or if the peak-fitting method is unknown and there are hits, returns no events for no hits, and never indexes out of bounds, for every sequence of fit/reset/get_events calls.", "quantifier": "all call sequences on one object", "why_tests_cant": "All call histories.", "anchors": ["sophiread/FastSophiread/src/abs.cpp: ABS::get_events", "sophiread/FastSophiread/include/abs.h"]}
{"id": "C31", "title": "One event per cluster, hits conserved", "statement": "With the centroid method, after fit(hits) get_events(hits) returns, in label order, exactly one event per cluster with at least min_cluster_size hits, whose hit count is the cluster size; with minimum size at most 1 the hit counts add up to the number of hits.", "quantifier": "all hit sequences and parameters", "why_tests_cant": "Conservation over all inputs; fails only when the total ToT of a cluster is zero.", "anchors": ["sophiread/FastSophiread/src/abs.cpp: ABS::get_events", "sophiread/FastSophiread/src/centroid.cpp: Centroid::fit"]}
{"id": "C32", "title": "Event position is the ToT-weighted mean of its hits", "statement": "With the centroid method the event position differs from the exact ToT-weighted mean by no more than floating-point rounding (relative 2^-51 for super resolution 1), so it lies in the bounding box of its hits up to that; ToT is the exact sum, ToF the mean of the hits' ToF.", "quantifier": "all clusters with decoded field ranges and non-zero total ToT", "why_tests_cant": "Rounding and averaging over arbitrary clusters.", "anchors": ["sophiread/FastSophiread/src/centroid.cpp: Centroid::fit", "sophiread/FastSophiread/include/neutron.h"]}
{"id": "C33", "title": "Fast Gaussian fitting rejects small clusters and never uses more than half the hits", "statement": "With fast_gaussian, clusters under 8 hits yield no event; for larger ones the fit uses only hits with ToT above the cluster median, which are at most half of them; the reported hit count is the full cluster size.", "quantifier": "all clusters", "why_tests_cant": "Median over arbitrary multisets.", "anchors": ["sophiread/FastSophiread/src/fastgaussian.cpp: FastGaussian::fit, getMedian", "sophiread/FastSophiread/src/abs.cpp: ABS::get_events"]}
{"id": "C34", "title": "Uniform bin edges are well formed", "statement": "For a positive number of bins and non-negative end time getBinEdges returns bins+1 edges, starting at 0, non-decreasing; custom edges are returned unchanged and take precedence.", "quantifier": "all bin counts and end times", "why_tests_cant": "Rounding for every bin count.", "anchors": ["sophiread/SophireadCLI/include/tof_binning.h: TOFBinning::getBinEdges, isUniform, isCustom"]}
{"id": "C35", "title": "Each in-range entry is counted once in the bin containing it", "statement": "For sorted edges e_0<...<e_n, an entry with time of flight t, e_0 <= t < e_n, and valid position adds exactly one count, in the bin whose edges enclose t, at its pixel; any other entry adds none.", "quantifier": "all edges, times and positions", "why_tests_cant": "Boundary values; all edge lists.", "anchors": ["sophiread/SophireadCLI/src/sophiread_core.cpp: updateTOFImages, timedCreateTOFImages"]}
{"id": "C36", "title": "Image writes stay in bounds", "statement": "updateTOFImages and timedCreateTOFImages never index outside the images for images of the size made by initializeTOFImages with the same super resolution and edges, whatever the positions, times and edges.", "quantifier": "all entries, all super-resolution factors, all edges", "why_tests_cant": "All values, including NaN, infinities and negative positions.", "anchors": ["sophiread/SophireadCLI/src/sophiread_core.cpp: updateTOFImages, initializeTOFImages, timedCreateTOFImages"]}
{"id": "C37", "title": "Histograms do not depend on order or batching", "statement": "The images after processing a collection of batches are unchanged by any permutation of the entries and by any re-splitting into batches or chunks; the total of all counts equals the number of accepted entries (below 2^32).", "quantifier": "all permutations and splittings", "why_tests_cant": "All permutations.", "anchors": ["sophiread/SophireadCLI/src/sophiread_core.cpp: updateTOFImages, calculateSpectralCounts"]}
{"id": "C38", "title": "One-shot and incremental imaging agree", "statement": "timedCreateTOFImages over a list of batches equals initializeTOFImages followed by updateTOFImages on each batch, for every list of batches.", "quantifier": "all batch lists (including the empty one), modes, edges", "why_tests_cant": "Includes degenerate lists nobody tests.", "anchors": ["sophiread/SophireadCLI/src/sophiread_core.cpp: timedCreateTOFImages, initializeTOFImages, updateTOFImages"]}
{"id": "C39", "title": "Saving images accumulates exactly", "statement": "After saving any sequence of image stacks of the same size into one output directory with the same base name, every TIFF file holds the pixel-wise sum of the stacks (below 2^32).", "quantifier": "all sequences of saves", "why_tests_cant": "Sequence of runs over persistent state.", "anchors": ["sophiread/SophireadCLI/src/sophiread_core.cpp: timedSaveTOFImagingToTIFF"]}
{"id": "C40", "title": "Spectrum file agrees with the images", "statement": "After every save the rows of <base>_Spectra.txt are the upper bin edge and the total count of the corresponding TIFF file in the directory.", "quantifier": "all sequences of saves", "why_tests_cant": "Cross-file consistency after arbitrary histories.", "anchors": ["sophiread/SophireadCLI/src/sophiread_core.cpp: timedSaveTOFImagingToTIFF, writeSpectralFile, calculateSpectralCounts"]}
{"id": "C41", "title": "Parallel image writing never targets one file twice", "statement": "Different bins are written to different file names, for every number of bins, so the concurrent writes of timedSaveTOFImagingToTIFF cannot interfere and the directory content is schedule independent.", "quantifier": "all bin indices, all schedules", "why_tests_cant": "Zero padding to four digits meets bin numbers above 9999.", "anchors": ["sophiread/SophireadCLI/src/sophiread_core.cpp: timedSaveTOFImagingToTIFF"]}
{"id": "C42", "title": "Incremental HDF5 output is the concatenation of all chunks", "statement": "After any sequence of successful appendHitsToHDF5Extendible (appendNeutronsToHDF5Extendible) calls each dataset holds the corresponding attribute of all hits (neutrons) in call order, all datasets have equal length, and appending an empty list changes nothing.", "quantifier": "all sequences of appends", "why_tests_cant": "All histories.", "anchors": ["sophiread/FastSophiread/src/disk_io.cpp: createOrExtendDataset, appendHitsToHDF5Extendible, appendNeutronsToHDF5Extendible"]}
{"id": "C43", "title": "Columns stay aligned when an append fails", "statement": "If an append fails at any point (disk full, library error), all datasets of the file still have equal length, so row i of every column describes the same hit.", "quantifier": "all failure points", "why_tests_cant": "Crash points cannot be enumerated by unit tests.", "anchors": ["sophiread/FastSophiread/src/disk_io.cpp: appendHitsToHDF5Extendible"]}
{"id": "C44", "title": "Saving never overwrites earlier results", "statement": "In append mode a new group gets a name not used in the file and every earlier group is kept; saving to an existing path without append goes to a new file name and leaves every existing file unchanged.", "quantifier": "all file contents and histories of saves", "why_tests_cant": "All histories; name collisions.", "anchors": ["sophiread/FastSophiread/src/disk_io.cpp: generateGroupName, saveOrAppendToHDF5, saveHitsToHDF5, generateFileNameWithMicroTimestamp"]}
{"id": "C45", "title": "Configuration falls back to documented defaults and bin edges take precedence", "statement": "For every JSON configuration object, each absent setting takes the documented default (radius 5, minimum cluster size 1, time range 75 ns, 1500 bins to 16.7 ms, super resolution 1), each present well-typed one its value, and explicit bin edges override uniform bins.", "quantifier": "all JSON documents", "why_tests_cant": "All combinations of present and absent keys.", "anchors": ["sophiread/SophireadCLI/src/json_config_parser.cpp: JSONConfigParser", "sophiread/SophireadCLI/include/json_config_parser.h"]}
{"id": "C46", "title": "Text configuration applies every setting it accepts", "statement": "parseUserDefinedConfigurationFile gives each recognised setting the value of its last occurrence, ignores comments and unknown names, and every accepted keyword has an effect.", "quantifier": "all configuration files", "why_tests_cant": "All line sequences, malformed lines.", "anchors": ["sophiread/SophireadCLI/src/user_config.cpp: parseUserDefinedConfigurationFile"]}
{"id": "C47", "title": "The auto reducer processes each file at most once", "statement": "Over any history of directory listings, no raw file whose processing succeeded is processed again, and a file that failed is retried.", "quantifier": "all histories of polls and outcomes", "why_tests_cant": "Unbounded polling histories.", "anchors": ["sophiread/SophireadCLI/src/venus_auto_reducer.cpp: process_existing_files, monitor_directory"]}
{"id": "C48", "title": "The auto reducer misses no file", "statement": "When monitoring stops because the run's .nxs.h5 file exists, every .tpx3 file present in the directory has been processed.", "quantifier": "all arrival orders of files relative to polls", "why_tests_cant": "Race between polling and arrival.", "anchors": ["sophiread/SophireadCLI/src/venus_auto_reducer.cpp: monitor_directory"]}
{"id": "C49", "title": "Legacy and fast decoders agree", "statement": "For every packet and chip id the legacy library's decoders and the fast library assign the same pixel position, ToT, ToA and fine ToA.", "quantifier": "all packets and chips", "why_tests_cant": "2^64 packets.", "anchors": ["sophiread/SophireadLib/src/tpx3.cpp: Hit::Hit, packetToHit, packetToHitAlt", "sophiread/FastSophiread/src/hit.cpp: Hit::Hit"]}
{"id": "C50", "title": "Legacy roll-over counter follows the 30-bit clock", "statement": "For every sequence of true arrival times starting below 2^30 whose consecutive steps are smaller than 2^29 in absolute value and which never goes negative, packetToHitAlt reconstructs the true times.", "quantifier": "all such histories of any length", "why_tests_cant": "Histories longer than the 26.8 s roll-over with out-of-order hits across it.", "anchors": ["sophiread/SophireadLib/src/tpx3.cpp: packetToHitAlt"]}
{"id": "C51", "title": "Legacy readers never read outside the buffer", "statement": "readTimepix3RawData and parseRawBytesToHits read only bytes of the file, for every file.", "quantifier": "all files, including truncated ones", "why_tests_cant": "Out-of-bounds reads are silent.", "anchors": ["sophiread/SophireadLib/src/tpx3.cpp: readTimepix3RawData, parseRawBytesToHits"]}
{"id": "C52", "title": "The streaming pipeline delivers every hit once and in order", "statement": "Under every interleaving of the reader and processor threads, the concatenation of the processed batches is the sequence of hits read from the file.", "quantifier": "all interleavings, all hit sequences", "why_tests_cant": "Interleavings cannot be enumerated.", "anchors": ["sophiread/SophireadStreamCLI/src/sophiread_stream.cpp: dataReader, dataProcessor"]}
{"id": "C53", "title": "The streaming pipeline terminates", "statement": "Whatever the input (including a file that cannot be opened), both threads end under every fair schedule.", "quantifier": "all inputs, all fair schedules", "why_tests_cant": "Liveness.", "anchors": ["sophiread/SophireadStreamCLI/src/sophiread_stream.cpp: dataReader, dataProcessor"]}
{"id": "C54", "title": "The display ring buffer is a lossless FIFO", "statement": "Under every interleaving of producer and consumer steps the ring of 4096 hits delivers every hit exactly once, in order, and never overwrites an unread one.", "quantifier": "all interleavings of any length", "why_tests_cant": "Interleavings.", "anchors": ["sophiread_display/mainwindow.cpp: filetohits", "sophiread_display/hit_worker.cpp: Hit_worker::runme"]}
{"id": "C55", "title": "Time-cluster merging partitions the hits", "statement": "mergeTimeClusters1D outputs clusters ordered in time, mutually separated by more than eps_time, each with at least min_points_time hits, whose hit indices are a sub-multiset of the input's, losing only clusters that are too small.", "quantifier": "all lists of time clusters", "why_tests_cant": "All interval configurations.", "anchors": ["sophiread/SophireadLib/src/dbscan.cpp: DBSCAN::mergeTimeClusters1D"]}
{"id": "C56", "title": "Legacy readers decode every hit packet of a complete stream", "statement": "On every stream of complete batches, readTimepix3RawData and parseRawBytesToHits return exactly one hit per hit packet, in order, with the packet's pixel and raw values, dated by the roll-over counter or by the trigger and global times in force at the packet.", "quantifier": "all complete streams of any number of batches and packets", "why_tests_cant": "The order and dating depend on the whole history of the stream.", "anchors": ["sophiread/SophireadLib/src/tpx3.cpp: readTimepix3RawData, parseRawBytesToHits"]}
{"id": "C57", "title": "Legacy and fast parsers return the same hits", "statement": "On every stream of complete batches the legacy parser parseRawBytesToHits and the fast pipeline in global-clock mode return the same hits (pixel and raw values).", "quantifier": "all complete streams", "why_tests_cant": "The two programs keep time differently; only a relation over all histories shows where they agree.", "anchors": ["sophiread/SophireadLib/src/tpx3.cpp: parseRawBytesToHits", "sophiread/FastSophiread/src/tpx3_fast.cpp"]}
{"id": "C58", "title": "fastParseTPX3Raw returns the hits of the file", "statement": "fastParseTPX3Raw returns the decoded hits of the buffer.", "quantifier": "all buffers", "why_tests_cant": "The result has a plausible length, so a test of the number of packets passes.", "anchors": ["sophiread/SophireadLib/src/tpx3.cpp: fastParseTPX3Raw"]}
{"id": "C59", "title": "The streaming reader sends exactly the file's hits", "statement": "On every stream of complete batches the reader of SophireadStreamCLI puts exactly one hit per hit packet into the queue, in order, the same as parseRawBytesToHits, and nothing depends on uninitialised memory.", "quantifier": "for all streams of complete batches and all contents of uninitialised arrays", "why_tests_cant": "Depends on the contents of unfilled stack arrays after failing reads and on arrival before trigger; a test run sees one memory content and a few files.", "anchors": ["sophiread/SophireadStreamCLI/src/sophiread_stream.cpp:42-135", "sophiread/SophireadLib/src/tpx3.cpp"]}
{"id": "C60", "title": "DBSCAN time clusters are connected components", "statement": "DBSCAN::fit finds, for every chunk size, exactly the connected components of the arrival times (14-bit counters in nanoseconds) under steps of at most eps_time that have at least min_points_time hits, each hit in at most one, in order of time and with the correctly rounded mean; neither the chunking nor the labelling inside a chunk matters.", "quantifier": "all hit lists and chunk sizes, all labellings whose clusters are connected", "why_tests_cant": "The chunk size is two million hits; all labellings.", "anchors": ["sophiread/SophireadLib/src/dbscan.cpp: DBSCAN::fit", "sophiread/SophireadLib/src/dbscan.cpp: DBSCAN::mergeTimeClusters1D"]}
{"id": "C61", "title": "DBSCAN labels agree with the events", "statement": "After DBSCAN::fit every hit is labelled -1 or with the number of an event, and every event counts exactly the hits that carry its number.", "quantifier": "all hit lists and all earlier uses of the object", "why_tests_cant": "All cluster configurations and histories.", "anchors": ["sophiread/SophireadLib/src/dbscan.cpp: DBSCAN::fit"]}
{"id": "C62", "title": "DBSCAN results depend only on the hits given", "statement": "The labels and events after DBSCAN::fit or DBSCAN::get_events are those a new object gives for the same hits.", "quantifier": "all hit lists and all earlier uses of the object", "why_tests_cant": "Histories.", "anchors": ["sophiread/SophireadLib/src/dbscan.cpp: DBSCAN::fit", "sophiread/SophireadLib/src/dbscan.cpp: DBSCAN::get_events", "sophiread/SophireadLib/src/dbscan.cpp: DBSCAN::reset"]}
{"id": "C63", "title": "DBSCAN clusters hits that arrive together", "statement": "Hits of one DBSCAN event arrived within a chain of steps of at most eps_time, and the time of flight of the event is the mean of those of its hits.", "quantifier": "all hit lists", "why_tests_cant": "The counter wraps every 409.6 microseconds.", "anchors": ["sophiread/SophireadLib/src/dbscan.cpp: DBSCAN::fit"]}
{"id": "C64", "title": "The display program reads all hits of a file", "statement": "filetohits decodes every hit packet of a file, once and in order, with the raw values, clock and position of the packet.", "quantifier": "all files made of complete chunks, and all truncated ones", "why_tests_cant": "Depends on the sizes of the chunks.", "anchors": ["sophiread_display/mainwindow.cpp: filetohits"]}
{"id": "C65", "title": "The display picture has one place for every pixel", "statement": "filetohits maps the pixels of four chips one to one onto a picture of 512 by 512, which is the detector of the batch program without the gap.", "quantifier": "all packets and chips", "why_tests_cant": "262144 pixels.", "anchors": ["sophiread_display/mainwindow.cpp: filetohits", "sophiread/FastSophiread/src/hit.cpp: Hit::Hit"]}
{"id": "C66", "title": "The time-of-flight histogram of the display counts its region", "statement": "mytofhisto counts exactly the hits of the file at picture positions 250 < x < 425, 125 < y < 325 with a time of flight under 170000 units of 100 ns, and never writes outside the array.", "quantifier": "all files made of complete chunks", "why_tests_cant": "All times and positions.", "anchors": ["sophiread_display/mainwindow.cpp: filetohits"]}
{"id": "C67", "title": "Every neutron of the file is shown once in the display", "statement": "Hit_worker::runme puts every hit into exactly one cluster of hits near in time and place and adds every cluster of more than ten hits to the picture once, at its mean position.", "quantifier": "all sequences of hits", "why_tests_cant": "Depends on the state of 128 slots, on the number of clusters and on where they lie.", "anchors": ["sophiread_display/hit_worker.cpp: Hit_worker::runme"]}
{"id": "C68", "title": "Clustering in the display has no undefined behaviour", "statement": "Hit_worker::runme neither overflows an int nor converts a value that int cannot hold, and increments only elements of my2dhisto.", "quantifier": "all sequences of hits of the detector", "why_tests_cant": "Needs thousands of hits in one cluster, or hits without TOT.", "anchors": ["sophiread_display/hit_worker.cpp: Hit_worker::runme"]}
{"id": "C69", "title": "Clusters of the legacy library", "statement": "ABS::fit of SophireadLib gives every hit one label; the labels are 0..k-1 in order of first occurrence, hits of one cluster lie within the time range of its first hit and within the radius of the box of the hits before, labels do not depend on later hits, and separated bursts get one label each.", "quantifier": "all sequences of hits with arrival times below 2^48 clock ticks and all parameters", "why_tests_cant": "Depends on the content of four slots that get recycled, over any number of hits.", "anchors": ["sophiread/SophireadLib/src/abs.cpp: ABS::fit"]}
{"id": "C70", "title": "The legacy and the fast library form the same clusters", "statement": "ABS::fit of SophireadLib and of FastSophiread give the same labels for the same hits and parameters.", "quantifier": "all sequences of hits", "why_tests_cant": "Needs five neutrons open at the same time.", "anchors": ["sophiread/SophireadLib/src/abs.cpp: ABS::fit", "sophiread/FastSophiread/src/abs.cpp: ABS::fit", "sophiread/SophireadLib/include/abs.h: numClusters_"]}
{"id": "C71", "title": "Events of the legacy library", "statement": "After fit, get_events of SophireadLib returns one event per cluster of sufficient size, the weighted mean of exactly its hits, with all hits in some event.", "quantifier": "all sequences of decoded hits", "why_tests_cant": "Depends on the clusters; fails for the empty list.", "anchors": ["sophiread/SophireadLib/src/abs.cpp: ABS::get_events", "sophiread/SophireadLib/src/centroid.cpp: Centroid::fit"]}
{"id": "C72", "title": "The viewer reads every file that the user chooses", "statement": "In the graphical program every file chosen is read and its events replace the earlier ones, whatever was done before, and saving never fails.", "quantifier": "all sequences of actions of the user, all files", "why_tests_cant": "Needs a cancelled dialog or a file without hits in the history.", "anchors": ["sophiread/SophireadGUI/src/mainwindow.cpp: MainWindow::handlereadfile", "sophiread/SophireadGUI/src/mainwindow.cpp: MainWindow::handlesavedata"]}
{"id": "C73", "title": "The picture of the viewer counts the events", "statement": "Every cell of the picture holds the number of events whose turned position lies in it, the increments are safe for all events and in every order of the threads, and the saved picture and events belong together.", "quantifier": "all sequences of actions, all events, all angles", "why_tests_cant": "Depends on the history of files read and on positions at the edges.", "anchors": ["sophiread/SophireadGUI/src/mainwindow.cpp: MainWindow::handlereadfile", "sophiread/SophireadGUI/src/mainwindow.cpp: MainWindow::handlesavedata"]}
{"id": "C74", "title": "The outputs of one run agree", "statement": "When sophiread returns 0, the file of hits, the file of neutrons, the time-of-flight images, the spectrum and the printed totals all describe the same hits and neutrons, each exactly once and in the order of the stream.", "quantifier": "all input files, options, configurations and failures of library calls", "why_tests_cant": "Needs the outputs of a whole run compared with each other, and failures of library calls in the middle of it.", "anchors": ["sophiread/SophireadCLI/src/sophiread.cpp: main", "sophiread/FastSophiread/src/disk_io.cpp: appendHitsToHDF5Extendible"]}
{"id": "C75", "title": "The command line is read as written", "statement": "sophiread accepts exactly the command lines built from its documented options, the last value of each option counts, the order of different options does not matter, and everything else is rejected.", "quantifier": "all lists of words", "why_tests_cant": "Infinitely many spellings: clustered switches, attached values, plain words in between, numbers with text after them.", "anchors": ["sophiread/SophireadCLI/src/sophiread.cpp: parse_arguments"]}
{"id": "C76", "title": "A cluster stays open until eight others have started", "statement": "When hits come in order of time, a hit joins an existing cluster whenever it matches one and fewer than eight clusters started no earlier than it; it never joins a cluster after which eight others started. If clusters start at different times the open clusters are exactly the last eight (in the legacy library the last four).", "quantifier": "all hits, parameters and numbers of clusters", "why_tests_cant": "Depends on which of many open clusters was given up earlier in a long stream; tests have a handful of clusters.", "anchors": ["sophiread/FastSophiread/src/abs.cpp: ABS::fit", "sophiread/SophireadLib/src/abs.cpp: ABS::fit"]}
{"id": "C77", "title": "The text files can be read back", "statement": "A program that reads the spectrum file back gets one row for every image, with the exact count and the end time of the bin to six significant digits; times that differ are printed differently. A program that reads the CSV file of the extractor gets exactly the chip, time, offset and time in nanoseconds of every record.", "quantifier": "all rows, times, counts and records; all input files of the extractor", "why_tests_cant": "Depends on the formatting of every double; tests look at a few values.", "anchors": ["sophiread/SophireadCLI/src/sophiread_core.cpp: writeSpectralFile", "sophiread/SophireadCLI/src/gdc_extractor.cpp: GDCExtractor::process"]}
{"id": "C78", "title": "The extractor writes the records of its input, or fails and changes nothing", "statement": "When the extractor returns 0, the output file holds exactly the records of the input, read in pieces of the given size, and no other file has changed. When it returns 1 no existing file has changed. It returns 0 exactly for usable settings: both files named, size from 1 to 20480 megabytes, input there, readable and not empty, output writable and another file.", "quantifier": "all command lines, file systems and input files", "why_tests_cant": "Depends on file system states (same file under two names, full device) that no test sets up.", "anchors": ["sophiread/SophireadCLI/src/main_gdc_extractor.cpp: main, parse_arguments", "sophiread/SophireadCLI/src/gdc_extractor.cpp: GDCExtractorOptions::validate, GDCExtractor::process"]}
{"id": "C79", "title": "The automatic reducer reports what it did", "statement": "The reducer accepts exactly the command lines of its usage text with valid settings and uses the last value given for each letter. It returns 0 only after the end marker, when all files it listed were processed and accumulated into the images named on the command line.", "quantifier": "all command lines, configurations and histories of the directory", "why_tests_cant": "Depends on long histories with failures; tests call the functions on single files.", "anchors": ["sophiread/SophireadCLI/src/venus_auto_reducer.cpp: main, parse_arguments, monitor_directory"]}
{"id": "C80", "title": "The decoders agree with the camera manufacturer's program", "statement": "On every file the fast decoder finds the hits that the manufacturer's example converter writes, in the same order, with the same position and duration and with the same arrival time up to the fine part within a tick; it holds the same global time and counts the same triggers.", "quantifier": "all files of complete blocks, both timing modes, all timestamps", "why_tests_cant": "The two programs are never run against each other; agreement is needed for every packet word.", "anchors": ["sophiread/resources/manufacture/tpx3cam.cpp: main", "sophiread/FastSophiread/src/hit.cpp: Hit::Hit", "sophiread/FastSophiread/src/tpx3_fast.cpp: findTPX3H, updateTimestamp, extractHits"]}
{"id": "C81", "title": "Parameter file of the legacy library", "statement": "Each of the three parameters has the value of its last line in the file, or its documented default when there is no such line or no file; other lines have no effect; the legacy parser and that of the command line program read the same from the same file; malformed values are not taken.", "quantifier": "all texts", "why_tests_cant": "The test reads two well-formed files; the statement is about all texts, repeated names, missing and malformed values and the comparison of two parsers.", "anchors": ["sophiread/SophireadLib/src/tpx3.cpp: parseUserDefinedParams", "sophiread/SophireadCLI/src/user_config.cpp: parseUserDefinedConfigurationFile"]}
{"id": "C82", "title": "Output files of the legacy library and of the streaming program", "statement": "A saved file holds exactly the hits with their labels, or the events, row by row, and determines them; refused calls change nothing; a call that returns has saved everything; other files are never touched. The streaming program writes the events of all hits of its input.", "quantifier": "all hits, labels, events, earlier contents of the disk, failures of the library, inputs of the streaming program and interleavings of its threads", "why_tests_cant": "Save functions are not tested with failures; the streaming program has no tests and its output depends on the interleaving.", "anchors": ["sophiread/SophireadLib/src/tpx3.cpp: saveHitsToHDF5, saveEventsToHDF5", "sophiread/SophireadStreamCLI/src/sophiread_stream.cpp: main, process_batch, processor"]}
{"id": "C83", "title": "Neutrons whose hits are interleaved are told apart", "statement": "When every neutron is coherent in time and space, different neutrons are apart in space or time, and fewer than seven others (eight for hits in order of time) start between its hits, the labels of the clusters are exactly the neutrons, whatever the order in which hits of different neutrons follow one another.", "quantifier": "all hit lists, assignments of hits to neutrons, radii and time ranges", "why_tests_cant": "Tests use a few separate clusters; the statement is about all interleavings and about the number of clusters that can be open.", "anchors": ["sophiread/FastSophiread/src/abs.cpp: ABS::fit", "sophiread/SophireadLib/src/abs.cpp: ABS::fit"]}
{"id": "C84", "title": "Every neutron of the stream becomes one event of the output", "statement": "For a well-formed stream and an assignment of the hits of every chunk to neutrons that can be recovered in the sense of C83, the command line program writes exactly one event for every visible neutron: the number of its hits, their mean position, total time over threshold and mean time of flight.", "quantifier": "all well-formed streams, assignments, settings and chunk sizes that do not cut a chunk", "why_tests_cant": "No test goes from the bytes of the detector to the file of events; the statement joins decoding, chunking, clustering, event building and output for all streams.", "anchors": ["sophiread/SophireadCLI/src/sophiread_core.cpp: timedProcessing", "sophiread/FastSophiread/src/abs.cpp: ABS::fit, ABS::get_events", "sophiread/SophireadCLI/src/sophiread.cpp: main"]}
{"id": "C85", "title": "The memory-mapped program finds the neutrons of the file", "statement": "For every well-formed stream the loop of benchmark_mmap ends and its vectors of events hold, in order, the events of the hits of every chunk, one per visible neutron, whatever the scheduler does with the batches; the reported numbers of hits and events are those found.", "quantifier": "all well-formed streams, all ways of cutting and joining the range, all options, all limits of at least two batches a round", "why_tests_cant": "The program has no test, and the number of events is added up wrongly only when the file needs more than one round of 100000 batches.", "anchors": ["sophiread/FastSophiread/benchmarks/benchmark_mmap.cpp: main, ComputeEvents"]}
{"id": "C86", "title": "The memory-mapped program writes what it found", "statement": "The output file named by the second argument holds position, time of flight in ns, number of hits and time over threshold of every event, in order, and no other file changes.", "quantifier": "all well-formed streams, all schedules, all output names and all states of the disk", "why_tests_cant": "The program has no test; the factor of 25 that is applied twice is invisible without comparing the file with the hits.", "anchors": ["sophiread/FastSophiread/benchmarks/benchmark_mmap.cpp: saveEventsToHDF5, saveEventsToCSV, main"]}
{"id": "C87", "title": "The binary file can be read back", "statement": "Saving events to a .bin file is defined for all events and different events give different files.", "quantifier": "all lists of events", "why_tests_cant": "Needs an event in the last three columns, or two events whose digits run together.", "anchors": ["sophiread/FastSophiread/benchmarks/benchmark_mmap.cpp: saveEventsToBIN"]}
{"id": "C88", "title": "Hits later than the pulse period are counted", "statement": "With a pulse rate given, the number of bad hits is the number of hits whose time of flight is longer than the period.", "quantifier": "all well-formed streams, all six rates, all schedules", "why_tests_cant": "The threshold is a thousandth of the intended one; seeing it needs hits with known times of flight.", "anchors": ["sophiread/FastSophiread/benchmarks/benchmark_mmap.cpp: main"]}
{"id": "C89", "title": "The arrival time read back from the file is the one in memory", "statement": "benchmark_raw2events counts every hit of the stream, finds no time of flight above 16.67 ms, and the largest arrival time that it reads back from verify_spidertime.h5 is the largest arrival time of the hits.", "quantifier": "all well-formed streams, all states of the disk", "why_tests_cant": "The check is wrong only from the second run in a directory on, and the check of the times of flight can never fire.", "anchors": ["sophiread/FastSophiread/benchmarks/benchmark_raw2events.cpp: run_single_thread, check_bad_tof", "sophiread/FastSophiread/benchmarks/benchmark_raw2hits.cpp: run_single_thread"]}
{"id": "C90", "title": "A cut loses the rest of one batch and nothing else", "statement": "When the file is read in pieces, the hits found are exactly those of the packets that lie in the same piece as their header, dated with the times carried through these packets; every cut loses at most 8191 packets, and nothing is lost if the file fits in one piece.", "quantifier": "all well-formed streams without packets that look like headers, all piece sizes that are multiples of 8 bytes", "why_tests_cant": "Test files fit in one piece; where a cut falls depends on the whole file before it.", "anchors": ["sophiread/SophireadCLI/src/sophiread.cpp: main loop over chunks", "sophiread/FastSophiread/src/disk_io.cpp: TPX3FileReader::readChunk", "sophiread/FastSophiread/src/tpx3_fast.cpp: findTPX3H, extractHits"]}
{"id": "C91", "title": "Clustering does not depend on where and when the hits are", "statement": "Mirroring or exchanging the axes, shifting the plane and shifting the time do not change which hits are put together by the clustering (current and legacy); a shift of the time alone leaves the events unchanged.", "quantifier": "for all lists of hits with coordinates up to 2^20 and times below 2^48, all motions between such lists, all radii that are whole or differ from every whole number by more than 2^-32", "why_tests_cant": "Tests place clusters at a few spots; rounding of the accumulated bounds depends on the place, so a radius just below a whole number behaves differently at other places, which no sample shows.", "anchors": ["sophiread/FastSophiread/src/abs.cpp: ABS::fit", "sophiread/SophireadLib/src/abs.cpp: ABS::fit"]}
{"id": "C92", "title": "The true times are recovered from the packets of the detector", "statement": "Signals of a detector (triggers, clocks, firing pixels, with their true times) are encoded in packets that carry the low bits of the times only; the decoded hits have the true arrival times, times of flight, places, times over threshold and fine times. With the global clock: if a trigger comes less than 107 s after the last clock, a pixel less than 1 s after the last clock and within 666800 ticks of the last trigger. With the triggers alone: during the first 53.7 s. Where both hold, the two modes agree.", "quantifier": "for all lists of signals, all times below 2^48, all states before", "why_tests_cant": "Round trips over all interleavings of triggers, clocks and pixels with times beyond the width of each field; tests decode a handful of fixed packets.", "anchors": ["sophiread/FastSophiread/src/hit.cpp: Hit::Hit", "sophiread/FastSophiread/src/tpx3_fast.cpp: extractHits, updateTimestamp"]}
{"id": "C93", "title": "From the detector to the files of hits and events", "statement": "For the file a detector of four chips writes (readouts with their headers), a run of the program that ends normally has written exactly the true hits, and one event for every neutron that can be told apart.", "quantifier": "for all lists of readouts, both modes, all options and parameters in range", "why_tests_cant": "Composes decoding, scanning, clustering, peak fitting and output for all inputs against the physical truth instead of against recorded output.", "anchors": ["sophiread/SophireadCLI/src/sophiread.cpp: main", "sophiread/FastSophiread/src/tpx3_fast.cpp: findTPX3H, extractHits", "sophiread/FastSophiread/src/abs.cpp: ABS::fit, ABS::get_events"]}
{"id": "C94", "title": "Exactly the files on which the behaviour of the program is undefined", "statement": "For a file of any bytes, not only one a detector wrote: if no 8-byte-misaligned piece has a header announcing more packets than there are, and every hit can be dated and has a time of flight, the program does nothing undefined whatever fails in the libraries, and without failures ends normally with one batch of hits per word that looks like a header; in every other case its behaviour is undefined. With the global clock a hit is bad exactly if its arrival time is not the one C04 asks for; with the triggers alone exactly if it comes before its trigger.", "quantifier": "for all files, chunk sizes, both modes, all parameters with a time range up to 2^62, all outputs into distinct files, images with a super resolution up to 2^20 and two bin edges or more", "why_tests_cant": "Undefined behaviour is invisible in a test that happens to pass; the set of files that trigger it is infinite and no sample delimits it.", "anchors": ["sophiread/SophireadCLI/src/sophiread.cpp: main", "sophiread/FastSophiread/src/tpx3_fast.cpp: findTPX3H, extractHits", "sophiread/FastSophiread/src/hit.cpp: Hit::Hit", "sophiread/FastSophiread/src/abs.cpp: ABS::fit, ABS::get_events"]}
{"id": "C95", "title": "The clustering benchmarks process as many neutrons as they generate", "statement": "benchmark_hits2events, benchmark_abs and benchmark_abs_thread generate clusters of ten hits, hit j of the list belonging to cluster j/10. For every outcome of the random numbers both libraries put hit j into cluster j/10, and the programs obtain exactly one event of ten hits per generated cluster, at the place of the cluster. Splitting the hits among the threads does not change the events.", "quantifier": "all numbers of clusters up to 200,000,000, all outcomes of the random distributions, all numbers of threads", "why_tests_cant": "The draws are random and 120,000,000 hits are clustered without checking the result; the benchmarks only print times.", "anchors": ["sophiread/FastSophiread/benchmarks/benchmark_hits2events.cpp: fake_hits, main", "sophiread/SophireadLib/benchmarks/benchmark_abs.cpp: fake_hits, run_single_test", "sophiread/SophireadLib/benchmarks/benchmark_abs_thread.cpp: single_test, thread_data::run"]}
{"id": "C96", "title": "The concurrent programs have no data race", "statement": "In no execution do two threads access the same memory, one of them writing, without one access happening before the other. This holds for the parallel loop of the command line program and the loops of the same form in the benchmarks, for the two threads of the streaming program, and for the reader, the worker and the timer of the display.", "quantifier": "all distributions of the batches to the bodies of the loop, all interleavings, all inputs", "why_tests_cant": "A data race is undefined behaviour whether or not a test run shows anything; tests see a few interleavings on one machine with one compiler.", "anchors": ["sophiread/SophireadCLI/src/sophiread_core.cpp: timedProcessing", "sophiread/SophireadStreamCLI/src/sophiread_stream.cpp: reader, processor", "sophiread_display/mainwindow.cpp: filetohits, handletimer", "sophiread_display/hit_worker.cpp: runme"]}
{"id": "C97", "title": "Configuration files are read as JSON texts, and their settings are the ones the text gives", "statement": "For every text of a configuration file: it is accepted if and only if it is a JSON text (RFC 8259), with the value of the grammar; of repeated names the last counts; and the settings used by the programs are those of the text, with the documented defaults. The command-line program reads files with extension .json in this way and others in the old line format.", "quantifier": "all texts, all paths", "why_tests_cant": "The texts are unbounded and the grammar is recursive.", "anchors": ["sophiread/SophireadCLI/src/json_config_parser.cpp: JSONConfigParser::fromFile", "sophiread/SophireadCLI/src/sophiread.cpp: main", "sophiread/SophireadCLI/src/venus_auto_reducer.cpp: main", "sophiread/SophireadCLI/src/user_config.cpp: parseUserDefinedConfigurationFile"]}
{"id": "C98", "title": "The images of the automatic reducer do not depend on when its files arrive", "statement": "For two runs of the automatic reducer with the same options that have processed the same raw files with success, in whatever polls and whatever order they were found: every pixel of every image file is the same, namely the number, modulo 2^32, of the hits (mode hit) or of the visible neutrons (mode neutron) of these files that belong there, every file taken on its own.", "quantifier": "all options, all histories of directory listings, all contents of files, all states of the output directory without images", "why_tests_cant": "The number of files, polls and groupings is unbounded, and no test runs the reducer over a directory that grows.", "anchors": ["sophiread/SophireadCLI/src/venus_auto_reducer.cpp: process_existing_files", "sophiread/SophireadCLI/src/venus_auto_reducer.cpp: monitor_directory", "sophiread/SophireadCLI/src/sophiread_core.cpp: timedReadDataToCharVec"]}
{"id": "C99", "title": "The images of a run of the detector count its true hits, or its neutrons", "statement": "Let the signals of a detector (clocks, triggers, firing pixels at true times) be stored as raw files in the Timepix3 format. Every pixel of every image file that the command-line program, or the automatic reducer, then writes is the number, modulo 2^32, of the true hits (mode hit), or of the neutrons (mode neutron), of the run at that place and in that interval of time since the last trigger; the rows of the spectrum file count them per interval. For the reducer the run may be divided over any number of files, found in any order.", "quantifier": "all lists of readouts of a detector, all options and settings, all histories of directory listings, all states of the output directory without images", "why_tests_cant": "It joins all stages from the packets to the files; the number of signals, files and polls is unbounded, and no test compares an image with known true hits.", "anchors": ["sophiread/SophireadCLI/src/sophiread.cpp: main", "sophiread/SophireadCLI/src/sophiread_core.cpp: timedCreateTOFImages", "sophiread/SophireadCLI/src/venus_auto_reducer.cpp: process_existing_files", "sophiread/FastSophiread/src/tpx3_fast.cpp: extractHits"]}
{"id": "C100", "title": "The older readers and the clock extractor recover the signals of a detector", "statement": "Let the signals of a detector (clocks, triggers, firing pixels at true times) be stored as a raw file in the Timepix3 format. Each of the three older readers returns exactly the hits of all firing pixels, in the order of the file, with their true positions, times and times since the last trigger. The clock extractor writes one row for each clock the detector sent, with the chip, the true time and its place in the file.", "quantifier": "all lists of readouts of a detector, all packets and times, all states of the memory that the streaming program does not fill, all arguments of the extractor", "why_tests_cant": "The number of readouts and signals is unbounded; the tests compare the number of hits of recorded files, never true times, and the errors appear only after many seconds of data or at certain places of clocks and triggers.", "anchors": ["sophiread/SophireadLib/src/tpx3.cpp: parseRawBytesToHits", "sophiread/SophireadLib/src/tpx3.cpp: readTimepix3RawData", "sophiread/SophireadStreamCLI/src/sophiread_stream.cpp: dataReader", "sophiread/FastSophiread/src/gdc_processor.cpp: GDCProcessor::processChunk"]}
{"id": "C101", "title": "The Gaussian fit puts a neutron at the centre of its peak", "statement": "Let the hits of a cluster of at least eight hits carry signals that lie on a Gaussian peak. With a linear solver that finds the least-squares solution up to some error, FastGaussian::fit returns an event at the centre of the peak up to that error. Least-squares solutions exist, move and mirror with the hits, and are determined exactly when no other surface of the model vanishes on the hits. Both libraries return, in order, exactly the fits of the clusters of at least eight hits at places that are not negative.", "quantifier": "all clusters, all Gaussian peaks, all solvers that meet the error, all batches", "why_tests_cant": "The signals and places of hits form an unbounded space; the test of the fit uses one simulated cluster whose true centre is known and allows a wide margin.", "anchors": ["sophiread/FastSophiread/src/fastgaussian.cpp: FastGaussian::fit", "sophiread/SophireadLib/src/fastgaussian.cpp: FastGaussian::fit", "sophiread/SophireadLib/src/abs.cpp: ABS::get_events"]}
{"id": "C102", "title": "The streaming program finds the neutrons of a detector", "statement": "Let the signals of a detector be stored as a raw file in the Timepix3 format, and let its neutrons light groups of pixels that can be told apart, those of eight pixels and more in the shape of Gaussian peaks. The streaming program writes to events_streamed.h5 exactly one event for each neutron of eight pixels and more, in the order in which they first fire, at the centre of its peak up to the error of the solver and with the number of its pixels, whatever the interleaving of its two threads.", "quantifier": "all lists of readouts, all interleavings, all places and shapes of neutrons, all solvers that meet the error", "why_tests_cant": "The number of signals and of interleavings is unbounded; no test runs the program or compares its events with known neutrons.", "anchors": ["sophiread/SophireadStreamCLI/src/sophiread_stream.cpp: main", "sophiread/SophireadStreamCLI/src/sophiread_stream.cpp: dataReader", "sophiread/SophireadStreamCLI/src/sophiread_stream.cpp: dataProcessor"]}
{"id": "C103", "title": "The display shows the pixels and neutrons of a detector", "statement": "From the file of a detector the display program (sophiread_display) reads one hit per firing pixel, with its true place and its true time since the trigger; it puts the hits of each neutron together, counts every neutron, and marks those of more than ten pixels in the picture at their true weighted mean.", "quantifier": "All lists of readouts of four chips, all true times, pixels, TOT and trigger times, all schedules of the reading and the clustering thread and the timer, all partitions of hits into neutrons, all angles of rotation.", "why_tests_cant": "A test file has one order of neutrons and stays within one turn of the 30-bit clock; the clustering depends on which 127 clusters are open, and the conditions under which grouping is unique concern unbounded histories.", "anchors": ["sophiread_display/mainwindow.cpp: filetohits", "sophiread_display/hit_worker.cpp: Hit_worker::runme"]}
{"id": "C104", "title": "The viewer shows the neutrons of a detector", "statement": "When the user reads files of a detector, the graphical viewer (SophireadGUI) makes one event for each neutron whose hits can be told apart, at the weighted mean of its hits, with their number, total time over threshold and time of flight, and each cell of the picture holds the number of neutrons of all files read that belong there, turned by the angle of the program.", "quantifier": "All sequences of files, all lists of readouts of four chips, all true times, pixels, TOT and trigger times, all assignments of hits to neutrons that the older clustering can recover, all angles, all earlier actions of the user.", "why_tests_cant": "A test reads one file with a known picture. That reading, roll-over counting, clustering, the mean, the rotation and the counting compose for every detector, with an explicit error bound at the borders of the cells, needs proofs of every stage that fit together.", "anchors": ["sophiread/SophireadGUI/src/mainwindow.cpp: MainWindow::handlereadfile", "sophiread/SophireadLib/src/tpx3.cpp: readTimepix3RawData", "sophiread/SophireadLib/src/abs.cpp: ABS::fit", "sophiread/SophireadLib/src/centroid.cpp: Centroid::fit"]}
{"id": "C105", "title": "The memory-mapped program finds the neutrons of a detector", "statement": "For the file of a detector of four chips whose signals are timely, benchmark_mmap ends normally and its HDF5 file holds one event for every visible neutron, made of the true hits; the hits counted are the pixels that fired, and those counted as bad are later than the period.", "quantifier": "all readouts of the detector, all options, all schedules, all limits of at least two batches a round, all states of the disk", "why_tests_cant": "The program has no test; losing the pixels of readouts without a clock of their own shows only when the output is compared with the true signals.", "anchors": ["sophiread/FastSophiread/benchmarks/benchmark_mmap.cpp: main, ComputeEvents, saveEventsToHDF5"]}
{"id": "C106", "title": "The generator of test data checks its file", "statement": "For packets whose counters fit their fields, and with room on the disk, the times that the generator prints on reading its file are those it printed on writing; the older library reads one hit for every packet, with its fields, and recovers true times less than half a turn of the clock apart.", "quantifier": "all lists of packets, all sizes of the disk, all previous files", "why_tests_cant": "The program is the source of the test data and has no test itself; its check is read by eye.", "anchors": ["sophiread/SophireadLib/tests/generate_fake_tpx3_data.cpp: main, packPixelHit, packDataHeader", "sophiread/SophireadLib/src/tpx3.cpp: readTimepix3RawData"]}
{"id": "C107", "title": "The threads of benchmark_raw2hits count what one thread counts", "statement": "On every file and under every division and interleaving of its parallel loop, benchmark_raw2hits reports twice the same number, namely the hits of the chunks that the file announces, each read from time 0; it does so unless the last chunk reaches the cut word at the end of the file, in which case reading is undefined. The loop ends, and never gets stuck. On the file of a detector that number is the number of pixels that a clock and a trigger of the same readout date, and benchmark_raw2events reports that number and the time of its last pixel.", "quantifier": "for every byte string, every argument list, every partition of the batches and every interleaving of the loop bodies; for every list of readouts", "why_tests_cant": "A test runs one schedule on one file; the agreement is a statement about every schedule and every file.", "anchors": ["sophiread/FastSophiread/benchmarks/benchmark_raw2hits.cpp: main", "sophiread/FastSophiread/benchmarks/benchmark_raw2events.cpp: main", "sophiread/FastSophiread/src/tpx3_fast.cpp: extractHits", "sophiread/FastSophiread/src/tpx3_fast.cpp: findTPX3H"]}
{"id": "C108", "title": "From the words, the configuration text and the signals to the files", "statement": "For every command line that spells out a run, every JSON configuration text and every measurement, the program returns 0 and the files named by the words contain the counts of the true hits or neutrons of the detector, with the bins, super resolution, radius and time range that the text gives: nothing in between - the options, the text parser, the settings, the reading of the file, the clustering, the images, the names - is assumed. The same holds for the automatic reducer as soon as the parts of a measurement are processed.", "quantifier": "for every list of settings, every way to write them as words, every text and JSON value, every list of readouts; for the reducer also every sequence of polls", "why_tests_cant": "No test runs the chain from words and text to pixels on all measurements; the parts are tested apart, with settings built in code.", "anchors": ["sophiread/SophireadCLI/src/sophiread.cpp: main", "sophiread/SophireadCLI/src/venus_auto_reducer.cpp: main", "sophiread/SophireadCLI/src/json_config_parser.cpp: JSONConfigParser::fromFile", "sophiread/SophireadCLI/src/sophiread_core.cpp: timedSaveTOFImagingToTIFF"]}
{"id": "C109", "title": "The text file of the manufacturer's converter tells every signal of the detector", "statement": "For every file of a detector, `converted.txt` has exactly one line for each trigger, clock and firing pixel, in the order of the file. Reading the printed numbers back gives the place and the time over threshold exactly, the arrival time of a hit up to 0.001 ns, the clock up to 8 ns and the trigger up to 0.25 ns of its counter plus 2 ns, so that the counters of the packets can be told from the line. The text does not depend on the value of the variable that the program reads before it is set. An input named `converted.txt` is lost.", "quantifier": "All detector files (any readouts of at most 8191 packets, any true times, pixels and counters), all values of the unset variable, all file systems; packet level: every complete file with arbitrary packets.", "why_tests_cant": "The claim is about the printed decimal digits of every possible counter value; a test compares a few lines and cannot see that 15 digits are enough for all of them.", "anchors": ["resources/manufacture/tpx3cam.cpp: main"]}
{"id": "C110", "title": "A measurement whose file is read in several pieces", "statement": "The file of a detector is read in pieces of any whole number of words. The hits, events, images and spectrum that are written are those of the signals whose packets lie in the same piece as the header of their readout. If only pixels are lost, every readout keeps a first part of its true hits, with unchanged times, and at most as many hits are missing as packets are cut off.", "quantifier": "all lists of readouts of a detector, all sizes of the pieces in words, both modes, all options and settings", "why_tests_cant": "The place of a cut depends on the size of the file; the files of the tests are smaller than a piece.", "anchors": ["sophiread/SophireadCLI/src/sophiread.cpp: main", "sophiread/FastSophiread/src/disk_io.cpp: readTPX3RawToCharVec", "sophiread/FastSophiread/src/tpx3_fast.cpp: findTPX3H, extractHits"]}
{"id": "C111", "title": "A neutron is counted once for every readout in which it leaves a mark", "statement": "Let every hit of a measurement be caused by some neutron, and let the neutrons within each readout be such that they can be told apart. Whatever the size of the pieces in which the file is read, the number of events in the file, and the reported total, is the number of pairs of a neutron and a readout in which the neutron leaves enough hits and charge. It is at least the number of neutrons, and equal to it exactly if no neutron leaves marks in two readouts.", "quantifier": "all lists of readouts with timely signals and without disguised packets, all ways to attribute hits to neutrons, all sizes of the pieces, both modes", "why_tests_cant": "The unit tests have neutrons inside one readout only; the over-counting depends on how the detector divides the signals.", "anchors": ["sophiread/SophireadCLI/src/sophiread.cpp: main", "sophiread/SophireadCLI/src/sophiread_core.cpp: timedProcessing", "sophiread/FastSophiread/src/abs.cpp: ABS::fit, ABS::get_events"]}
{"id": "C112", "title": "The display program saves the counts of the last file read", "statement": "While a file is read neither button of the window does anything. Once the timer has stopped, both threads have ended, nothing changes any more what they counted, and saving writes a picture file of 4096 by 4096 doubles, column by column, whose numbers are the counts of the places shown for the hits that came through (the first ones of the file last read), and a spectrum file of 170000 counts of the times of flight of all its hits modulo 2^32; nothing of what was counted before is left and no other file is touched. If the threads and the timer get turns again and again, the timer stops. Of a detector with the timely conditions of C103 the picture holds the neutrons of more than ten pixels but for the last 127, where they are, and the spectrum the true times of flight of the pixels in the corners of the chips.", "quantifier": "All earlier states of the window, files, schedules of the two threads and the timer, names, and contents of memory; all detectors as in C103.", "why_tests_cant": "The schedules and the earlier states are unbounded, and the tests do not touch the display program.", "anchors": ["sophiread_display/mainwindow.cpp: MainWindow::handlesavedata", "sophiread_display/mainwindow.cpp: MainWindow::handlereadfile", "sophiread_display/mainwindow.cpp: MainWindow::handletimer"]}
{"id": "C113", "title": "Neutrons that are apart in space or time are each found once by DBSCAN", "statement": "For hits of which each is known to belong to one neutron, where the hits of a neutron are close together and connected in time, hits of different neutrons are farther apart than the distance or not connected in time, every neutron has at least the minimum number of hits and at least the minimum number of hits are connected in time with each hit, DBSCAN on a new object gives two hits the same label exactly if they belong to the same neutron, and reports one event for each neutron, with its number of hits and a place between its hits.", "quantifier": "all lists of hits, all divisions into neutrons that satisfy the conditions, all neighbourhoods and numbers of points, every clustering function that satisfies the stated contract of mlpack", "why_tests_cant": "The property ranges over every arrangement of neutrons and every behaviour that mlpack may show; the tests of the project have one arrangement of three groups.", "anchors": ["sophiread/SophireadLib/src/dbscan.cpp: DBSCAN::fit", "sophiread/SophireadLib/src/dbscan.cpp: DBSCAN::get_events"]}
{"id": "C114", "title": "The tests with random hits pass whatever is drawn", "statement": "The tests ABSTest.FitNeutronEvents, Clustering.ABSAlgorithm and Clustering.DBSCANAlgorithm, which draw their hits at random from three separate clusters, pass for every outcome of the draws.", "quantifier": "all outcomes of all draws within the ranges of the distributions", "why_tests_cant": "A test is run for a few outcomes of the draws; the outcomes for which it fails are rare.", "anchors": ["sophiread/FastSophiread/tests/test_abs.cpp: ABSTest.FitNeutronEvents", "sophiread/SophireadLib/tests/test_clustering.cpp: Clustering.ABSAlgorithm", "sophiread/SophireadLib/tests/test_clustering.cpp: Clustering.DBSCANAlgorithm"]}
{"id": "C115", "title": "What the descriptions of hits, events and settings tell", "statement": "The text that toString makes of a hit, a neutron event, the parameters of clustering or a configuration can be read back to what it describes: hits exactly, sizes and counts exactly, and it tells the settings that will be used.", "quantifier": "all hits, events, parameters and configurations", "why_tests_cant": "The values with which a description loses something (more than six digits, unequal bins, a file without bins) are not among the values of the tests, which check two or three fixed texts.", "anchors": ["sophiread/FastSophiread/src/hit.cpp: Hit::toString", "sophiread/FastSophiread/include/neutron.h: Neutron::toString", "sophiread/SophireadCLI/src/json_config_parser.cpp: JSONConfigParser::toString", "sophiread/SophireadCLI/src/user_config.cpp: UserConfig::toString"]}
{"id": "C116", "title": "What the compiler may change with -ffast-math", "statement": "Everything is compiled with -march=native -ffast-math, which lets the compiler add in another order, fuse multiplications and additions, move factors and terms, multiply by reciprocals and assume that no value is infinite or NaN. None of these liberties changes which clusters are found, the total charge or the number of hits of an event; positions and times change by at most three roundings, and pixels and time bins do not change.", "quantifier": "all clusters of decoded hits and super resolutions 1 to 4, all orders and groupings of the sums, all forms of the conditions of the box search (also different ones in different rounds), all forms of times and bin edges", "why_tests_cant": "A test runs one binary; another compiler, version or processor (AVX width, FMA) picks another of the permitted computations.", "anchors": ["sophiread/CMakeLists.txt: add_compile_options", "sophiread/FastSophiread/src/centroid.cpp: Centroid::fit", "sophiread/FastSophiread/src/abs.cpp: ABS::fit", "sophiread/SophireadCLI/include/tof_binning.h: TOFBinning::getBinEdges", "sophiread/SophireadCLI/src/sophiread_core.cpp: timedCreateTOFImages"]}
{"id": "C117", "title": "Releasing a version", "statement": "scripts/version.sh release PART makes the next version in include/version.h: PART is one more, lower parts are 0, nothing else in the file changes, the new version is printed and greater than the old one; a failing release, the dry run and all other actions change nothing; check succeeds if the changelog names the version; VERSION_NUMBER grows with the version.", "quantifier": "all version files, changelogs and command lines of options and words, all series of releases", "why_tests_cant": "The script has no tests; the cases in which it destroys the file (remarks with digits, octal numbers, longer names) need files that nobody thought of.", "anchors": ["sophiread/scripts/version.sh: bump_version", "sophiread/scripts/version.sh: commit_version_part", "sophiread/scripts/version.sh: get_version_part", "sophiread/scripts/version.sh: check_version", "sophiread/include/version.h: VERSION_NUMBER"]}
{"id": "C118", "title": "The graphical program saves a picture of all events and the events of the last file, and touches nothing else", "statement": "Whatever a user does in a session of the graphical program of the legacy library - reading files, saving, changing the colours - saving under two names at the end writes one file of 512 x 512 doubles in which number i of row j counts the events of all files read that lie in that cell after turning, and one HDF5 file with the rows of the events of the last file read; the numbers of the picture add up to the events that lie in it, and no file whose name the user did not give is changed. A file that cannot be written whole is not taken for a saved one.", "quantifier": "all sessions of any length, all contents of the files read, all names, all earlier contents of the disk, all failing calls of the HDF5 library", "why_tests_cant": "Saving goes through dialogs that no test opens, and the files depend on everything that was read before in the session.", "anchors": ["sophiread/SophireadGUI/src/mainwindow.cpp: handlesavedata", "sophiread/SophireadLib/src/tpx3.cpp: saveEventsToHDF5"]}
{"id": "C119", "title": "Damage to a file stays where it is, and where it does not", "statement": "Take a file whose headers do not announce packets beyond the next header. If a packet that gives no time is replaced by another word that is neither a header nor a time, at most its own hit changes. If any packet is replaced by anything but a header, with the global clock all batches before are the same, and so are all batches after the times have been given again. If a header is lost, only its batch is missing (as long as it holds no times, or from where they are given again); if it announces too little, only the rest of its batch. If the file ends early, its batches are the first ones, the last one cut. Files that begin with the same pieces give the same batches for them, whatever the bytes. What is not contained: a packet or a size that makes a false header counts hits twice, a byte lost hides everything after it, and with the triggers alone one wrong trigger leaves all later hits without time of flight.", "quantifier": "all files, positions of the damage, words before and after it, piece sizes of whole words, both modes, all clustering parameters", "why_tests_cant": "A test damages a few places of a few files; that nothing else changes is a statement about all places and all files.", "anchors": ["sophiread/FastSophiread/src/tpx3_fast.cpp: findTPX3H, extractHits, updateTimestamp", "sophiread/SophireadCLI/src/sophiread_core.cpp: timedFindTPX3H, timedLocateTimeStamp, timedProcessing", "sophiread/SophireadCLI/src/sophiread.cpp: main"]}
{"id": "C120", "title": "The arithmetic used in all other properties is that of IEEE 754 binary64", "statement": "The double arithmetic of the model, in which the getters of the hits, the clustering, the fits, the bin edges and the images are computed, is that of the standard: a result is the value of the format nearest to the exact one, of two equally near the one with an even significand, and there is only one such value; it is infinite exactly from half a last place above the largest value on; values of the format are kept. Sums, products and quotients are invalid exactly where the standard says so and otherwise those of the extended numbers; comparisons are those of the extended numbers and false with a NaN; conversions to integers discard the fraction and are undefined exactly if the rest does not fit; std::round takes halves away from zero.", "quantifier": "all rational numbers and all doubles", "why_tests_cant": "There are 2^128 pairs of operands.", "anchors": ["sophiread/FastSophiread/include/hit.h: getTOF_ns, getTOA_ns, getSPIDERTIME_ns", "sophiread/FastSophiread/src/abs.cpp: ABS::fit", "sophiread/FastSophiread/src/centroid.cpp: Centroid::fit", "sophiread/SophireadCLI/include/tof_binning.h: TOFBinning::getBinEdges", "sophiread/SophireadCLI/src/sophiread_core.cpp: updateTOFImages"]}
{"id": "C121", "title": "The benchmark script says whether the results of all runs agree", "statement": "When the benchmark script runs benchmark_mmap once plainly and then in four configurations several times each, every run that goes well writes the events of the input under a name of its own, and the script compares all files of that kind with the one of the first run. If the input can be read and every run writes its file, it reports that all one plus four times the number of repetitions agree, whatever the schedule, limit or number of threads. An equal verdict is what one expects to mean: all runs of this time wrote the same, correct events.", "quantifier": "all inputs, all formats of output, all numbers of repetitions, all schedules and limits of the runs", "why_tests_cant": "The number of files and their contents come from runs of several programs with threads; a script that compares left-over files or counts only what it finds gives the same message.", "anchors": ["sophiread/FastSophiread/benchmarks/benchmark.sh", "sophiread/FastSophiread/benchmarks/benchmark_mmap.cpp: main"]}
{"id": "C122", "title": "What comes out of a file is bounded by its size", "statement": "For every file, of any bytes, a finished run of the streaming program makes at most one batch per 8 bytes, at most 8191 hits per batch and at most 6143 hits per word of the file; the factor 6143 is the best possible. If no header lies among the words that another header announces, hits and batches together are at most the words of the file. Events are never more than the hits, and with a smallest cluster of n hits at most one per n hits. The loop that folds a time of flight takes at most 6442 rounds and this number is attained.", "quantifier": "all files, chunk sizes, cluster settings and fitting functions; all times of flight", "why_tests_cant": "The worst file must be constructed: each of its words is at the same time a header and a hit packet, so that one packet is decoded thousands of times. No recorded file is of this kind, and a bound for all files is not something a run can show.", "anchors": ["sophiread/FastSophiread/src/tpx3_fast.cpp: findTPX3H", "sophiread/FastSophiread/src/tpx3_fast.cpp: extractHits", "sophiread/FastSophiread/src/hit.cpp: Hit::Hit", "sophiread/FastSophiread/src/abs.cpp: get_events", "sophiread/SophireadCLI/src/sophiread.cpp: main"]}
{"id": "C123", "title": "The file of hits tells every dated hit packet", "statement": "If two files, of any bytes, are each read to the end by the program with hits written, all headers name one of the four chips, and the two files of hits have the same content, then the hit packets that came after a trigger (and, with the global clock, after a global time) are the same in the two files: all 64 bits, the chip, and the order.", "quantifier": "all pairs of files, options, settings and fitting functions", "why_tests_cant": "It is a statement about pairs of files: that no two different packets give the same row. There are 2^62 pairs of a packet and a chip.", "anchors": ["sophiread/FastSophiread/src/hit.cpp: Hit::Hit", "sophiread/FastSophiread/src/disk_io.cpp: appendHitsToHDF5Extendible", "sophiread/SophireadCLI/src/sophiread.cpp: main"]}
{"id": "C124", "title": "Every output depends on its own settings only", "statement": "Take two runs of the command line program on one file that both end normally, with any options, settings, fitting functions and failures of the HDF5 library. If time reference and chunk size are the same, they count the same hits, and files of hits are equal if the failures in writing them are the same, whatever the clustering, the images and the other files are. If the clustering settings are the same too, they count the same neutrons, and files of neutrons are equal if the failures in writing them are the same. Images with the same settings are equal, for images of hits whatever the clustering is. The solver of the Gaussian fit has no effect. What is not asked for is not written.", "quantifier": "all files, all pairs of runs that end normally", "why_tests_cant": "It relates pairs of runs over all combinations of options, which a test would have to enumerate; that a setting has no effect cannot be seen in one run.", "anchors": ["sophiread/SophireadCLI/src/sophiread.cpp: main", "sophiread/SophireadCLI/src/sophiread_core.cpp: timedProcessing", "sophiread/SophireadCLI/src/sophiread_core.cpp: updateTOFImages", "sophiread/FastSophiread/src/disk_io.cpp: appendHitsToHDF5Extendible"]}
{"id": "C125", "title": "A failed allocation costs only what was being allocated", "statement": "If the command line program runs out of memory while it works on a chunk (the chunk itself, its batches, hits, events or output columns), it goes on with the rest of the file; what it writes are the batches of the chunks that got past reading, each chunk cut where its round failed, with the hits and events of a run without failures; and the program comes to an end.", "quantifier": "all files of any bytes, all options and settings, all sequences of failures over the rounds of the loop, each at the chunk, the search, the processing, or any of the three outputs of any batch", "why_tests_cant": "A test cannot make a chosen allocation fail, and cannot try all places at which one may fail; that the program never ends cannot be seen in a test.", "anchors": ["sophiread/SophireadCLI/src/sophiread.cpp: main", "sophiread/FastSophiread/src/disk_io.cpp: TPX3FileReader::readChunk", "sophiread/FastSophiread/src/tpx3_fast.cpp: findTPX3H", "sophiread/SophireadCLI/src/sophiread_core.cpp: timedProcessing"]}
{"id": "C126", "title": "Measurement in several files", "statement": "A measurement is recorded in several files that are reduced one by one. With the global clock, if each file dates its own hits (lower half, upper half and trigger before every hit packet) the separate runs give, batch by batch, exactly what a run over the joined file gives, for any number of files; in general a part agrees from the first batch after its packets have given the times. Without the global clock, as long as the trigger counter has not begun a new round, a part lacks exactly the hits before its own first trigger and everything else is the same. A part without a trigger gives no hits in either mode.", "quantifier": "all files, all divisions between pieces or between chunks of one piece, any number of parts, both modes, all settings", "why_tests_cant": "A test runs one file; that separate runs agree with the joined run is a statement about every way to divide every measurement, and the tests contain no file divided in two.", "anchors": ["sophiread/FastSophiread/src/tpx3_fast.cpp: updateTimestamp", "sophiread/FastSophiread/src/tpx3_fast.cpp: extractHits", "sophiread/SophireadCLI/src/sophiread_core.cpp: timedProcessing"]}
{"id": "C127", "title": "Finer and coarser images", "statement": "Running the same data with other bins or another super resolution gives images that fit together. If the coarser time edges are among the finer ones and end with the same edge, every pixel of a coarser bin is the sum of the finer bins between its two edges. Images of hits at an integer super resolution m are those at 1 with every pixel (y, x) at (m y, m x) and 0 elsewhere. For neutrons and an odd super resolution m, the pixel (y, x) of the image at 1 is the sum of the m by m pixels around (m y, m x), exactly, in spite of the two roundings. All sums are modulo 2^32.", "quantifier": "all batches, all ascending edges, all integer super resolutions up to 2^20 (odd ones for neutrons), all finite non-negative double coordinates, all pixels", "why_tests_cant": "A test makes one image at one setting; that images at different settings agree is a relation between two runs over all data and needs that the product of a double and the super resolution never rounds across the border of a block.", "anchors": ["sophiread/SophireadCLI/src/sophiread_core.cpp: timedCreateTOFImages", "sophiread/SophireadCLI/src/sophiread_core.cpp: updateTOFImages", "sophiread/SophireadCLI/src/sophiread_core.cpp: initializeTOFImages"]}
{"id": "C128", "title": "The minimum cluster size only takes away small neutrons", "statement": "If clustering and event building succeed with a minimum cluster size, they succeed with every greater one, with the same cluster labels, and give exactly the neutrons with at least that many hits, unchanged and in the same order, for both methods of fitting. If the processing of a file succeeds, it does so with every greater minimum size, with the same batches, hits and times and the neutrons that have enough hits. If the program ends normally it does so with every greater minimum size (no failures of the library). Of two such runs the file of hits is the same and the file of neutrons is that of the other without the smaller neutrons; no pixel of the images of neutrons gets more.", "quantifier": "all hits, all states of the clustering object, all files, all chunk sizes, both modes, all settings, both fitting methods and all results of the solver", "why_tests_cant": "A test uses one minimum size; that two runs with different settings differ only by removed neutrons is a relation over all data, and looks the same for the radius and the time range, for which it is false.", "anchors": ["sophiread/FastSophiread/src/abs.cpp: ABS::get_events", "sophiread/FastSophiread/src/abs.cpp: ABS::fit", "sophiread/SophireadCLI/src/sophiread_core.cpp: timedProcessing"]}
{"id": "C129", "title": "The time reference changes the times, not the pixels", "statement": "Take a file of any bytes in which no trigger counter reads zero, and two runs of the program on it that end normally, one with the global clock and one with the triggers alone. The hits of the second are first those that come after a trigger and before the first global time, and then, in order, the hits of the first with the same position, time over threshold, time of arrival and fine time of arrival. The columns of the files of hits and the totals follow. Not so if a trigger counter reads zero, and not for the arrival times.", "quantifier": "every file, every piece size, every pair of runs that end normally", "why_tests_cant": "A test runs one mode at a time on a sample file; it cannot compare both modes for every file.", "anchors": ["sophiread/FastSophiread/src/tpx3_fast.cpp: process_tpx3_packets", "sophiread/FastSophiread/src/hit.cpp: Hit", "sophiread/SophireadCLI/src/sophiread_core.cpp: timedProcessing"]}
