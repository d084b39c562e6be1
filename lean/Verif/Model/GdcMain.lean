import Verif.Model.Getopt
import Verif.Model.Text

/-!
# The GDC extractor as a program (SophireadCLI/src/main_gdc_extractor.cpp, gdc_extractor.cpp)

Log output is left out.  Files are regular files; what the operating system allows is a parameter.
-/

namespace Verif

/-- What the operating system decides. -/
structure GdcEnv where
  /-- the file a name stands for (links, `.`, `..`) -/
  target : Path → Path
  /-- an existing file of this name can be opened for reading -/
  readable : Path → Bool
  /-- a file of this name can be opened for writing, or created -/
  writable : Path → Bool
  /-- the parent directory is not named, exists, or can be created -/
  parentOk : Path → Bool
  /-- number of bytes that the device of the output file takes -/
  room : Nat

/-- Contents of the existing files, by `target` names. -/
abbrev Files := Path → Option Bytes

/-- `struct GDCExtractorOptions` (gdc_extractor.h:20-32). -/
structure GdcOptions where
  input : Path := []
  output : Path := []
  chunkSize : Nat := 5 * 1024 * 1024 * 1024
  debug : Bool := false
  verbose : Bool := false
  deriving DecidableEq

/-- The string `"i:o:c:dv"` (main_gdc_extractor.cpp:33). -/
def gdcArgLetters : List Char := ['i', 'o', 'c']
def gdcFlagLetters : List Char := ['d', 'v']

/-- Body of the loop (main_gdc_extractor.cpp:34-60); the product is computed in 64 bits. -/
def applyGdcItem (o : GdcOptions) : OptItem → Res GdcOptions
  | .flag 'd' => .ok { o with debug := true }
  | .flag 'v' => .ok { o with verbose := true }
  | .arg 'i' v => .ok { o with input := v }
  | .arg 'o' v => .ok { o with output := v }
  | .arg 'c' v => (stoull v).bind fun mb => .ok { o with chunkSize := (BitVec.ofNat 64 mb * 1024#64 * 1024#64).toNat }
  | _ => .throws "Invalid argument"

def applyGdcItems : GdcOptions → List OptItem → Res GdcOptions
  | o, [] => .ok o
  | o, i :: is => (applyGdcItem o i).bind fun o' => applyGdcItems o' is

/-- `parse_arguments` up to `validate` (main_gdc_extractor.cpp:28-71). -/
def gdcParse (argv : List Arg) : Res GdcOptions :=
  (applyGdcItems {} (getoptGo gdcArgLetters gdcFlagLetters none argv)).bind fun o =>
    if o.input = [] ∨ o.output = [] then .throws "required" else .ok o

/-- `GDCExtractorOptions::validate` (gdc_extractor.cpp:23-69): the answer, and the files.  Opening the output for appending
creates it; the chunk size is looked at after that. -/
def gdcValidate (e : GdcEnv) (o : GdcOptions) (fs : Files) : Bool × Files :=
  if fs (e.target o.input) = none then (false, fs)
  else if e.readable o.input = false then (false, fs)
  else if e.parentOk o.output = false then (false, fs)
  else if e.writable o.output = false then (false, fs)
  else
    let fs := Function.update fs (e.target o.output) (some ((fs (e.target o.output)).getD []))
    if o.chunkSize < 1024 * 1024 ∨ 20 * 1024 * 1024 * 1024 < o.chunkSize then (false, fs) else (true, fs)

/-- The loop of `process` (gdc_extractor.cpp:119-137), `fuel` rounds at most: the records of all chunks. -/
def gdcReadLoop (size : Nat) : Nat → Reader → GdcProc → Nat → Res (List GdcRecord)
  | 0, _, _, _ => .ok []
  | fuel + 1, r, p, base =>
    if r.isEOF then .ok []
    else
      let d := r.readChunk size
      if d.1 = [] then .ok []
      else do
        let x ← p.processChunk d.1 base
        let rest ← gdcReadLoop size fuel d.2 x.1 (base + d.1.length)
        .ok (x.2 ++ rest)

/-- Text as bytes. -/
def textBytes (t : List Char) : Bytes := t.map fun c => BitVec.ofNat 8 c.toNat

/-- The content of a stream that was given `t` to write and was closed: insertions that fail set a state that is never looked
at (gdc_extractor.cpp:74-97 expect an exception, which streams do not throw unless told to). -/
def writtenBytes (e : GdcEnv) (t : List Char) : Bytes := (textBytes t).take e.room

/-- `GDCExtractor::process` (gdc_extractor.cpp:99-141): exit code and files.  The output is truncated before the input is
opened; the constructor of the reader throws for an empty file, and the stream is closed on the way out.  As many rounds as
there are bytes, and one to see the end, are enough for the loop to end. -/
def gdcProcess (e : GdcEnv) (o : GdcOptions) (fs : Files) : Res (Nat × Files) :=
  if e.writable o.output = false then .ok (1, fs)
  else
    let fs := Function.update fs (e.target o.output) (some [])
    match fs (e.target o.input) with
    | none => .ok (1, Function.update fs (e.target o.output) (some (writtenBytes e (gdcText []))))
    | some file => match Reader.open file with
      | .ub u => .ub u
      | .throws _ => .ok (1, Function.update fs (e.target o.output) (some (writtenBytes e (gdcText []))))
      | .ok r => match gdcReadLoop o.chunkSize (file.length + 1) r GdcProc.new 0 with
        | .ub u => .ub u
        | .throws _ => .ok (1, fs)
        | .ok rs => .ok (0, Function.update fs (e.target o.output) (some (writtenBytes e (gdcText rs))))

/-- `main` (main_gdc_extractor.cpp:86-110): exit code and files. -/
def gdcMain (e : GdcEnv) (argv : List Arg) (fs : Files) : Res (Nat × Files) :=
  match gdcParse argv with
  | .ub u => .ub u
  | .throws _ => .ok (1, fs)
  | .ok o => match gdcValidate e o fs with
    | (false, fs') => .ok (1, fs')
    | (true, fs') => gdcProcess e o fs'

end Verif
