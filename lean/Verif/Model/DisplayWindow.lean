import Verif.Model.Display
import Verif.Model.DisplayWorker
import Verif.Model.Tiff

/-!
# The window of the display program (sophiread_display/mainwindow.cpp:177-367)

Reading and saving.  Drawing, the labels and the spin boxes are left out, and so is `delete` for arrays made with `new[]`
(mainwindow.cpp:238, 244, 366, hit_worker.cpp:205), which is undefined in C++ and harmless for these types in practice.
-/

namespace Verif

/-- Magnitude bits of a finite double (IEEE 754 binary64): biased exponent and fraction, or a subnormal number. -/
def f64Magnitude (q : ℚ) : Nat :=
  if q < 2 ^ (-1022 : ℤ) then (q * 2 ^ (1074 : ℤ)).floor.toNat
  else (Int.log 2 q + 1023).toNat * 2 ^ 52 + ((q / 2 ^ Int.log 2 q - 1) * 2 ^ 52).floor.toNat

/-- The 64 bits of a `double` in memory; for not-a-number those of the usual one. -/
def f64Bits : F64 → Nat
  | .nan => 0x7FF8000000000000
  | .inf neg => 0x7FF0000000000000 + if neg then 2 ^ 63 else 0
  | .fin q => f64Magnitude |q| + if q < 0 then 2 ^ 63 else 0

/-- An element of `my2dhisto`: zero (mainwindow.cpp:199, 304), then `+=1` for every place shown (hit_worker.cpp:149). -/
def pictureCell (shown : List (Int × Int)) (ix iy : Nat) : F64 :=
  (shown.filter fun p => p = ((ix : Int), (iy : Int))).foldl (fun v _ => F64.add v (.fin 1)) (.fin 0)

/-- An element of `mytofhisto`: zero (mainwindow.cpp:305), then `++` on an `unsigned int` (mainwindow.cpp:122). -/
def spectrumCell (tofs : List Int) (i : Nat) : U32 := BitVec.ofNat 32 (tofs.count (i : Int))

/-- Element `k` of `swaphisto` (mainwindow.cpp:341-350); `my2dhisto[isize*iy+ix]` is the place `(ix, iy)`. -/
def swappedCell (shown : List (Int × Int)) (k : Nat) : F64 := pictureCell shown (k / 4096) (k % 4096)

/-- What `fwrite` of the picture writes (mainwindow.cpp:352). -/
def pictureBytes (shown : List (Int × Int)) : Bytes :=
  (List.range (4096 * 4096)).flatMap fun k => bytesOf (BitVec.ofNat 64 (f64Bits (swappedCell shown k)))

/-- What `fwrite` of the spectrum writes (mainwindow.cpp:362). -/
def spectrumBytes (tofs : List Int) : Bytes :=
  (List.range 170000).flatMap fun i => (List.range 4).map (byteOf ((spectrumCell tofs i).setWidth 64))

/-- Contents of a file; `indeterminate` if an array that was never set was written. -/
inductive SavedFile where
  | bytes (b : Bytes)
  | indeterminate
  deriving DecidableEq

/-- The window: the file read last, as `filetohits` parses it, with the state of the threads that work on it; whether the
timer runs; the file system. -/
structure DisplayWindow where
  last : Option (ParseState × Ring DisplayHit)
  timer : Bool
  files : Path → Option SavedFile

/-- What happens: the button to read a file, with the choice in the dialog (cancelled, a file that cannot be opened, a
file) and the old contents of the ring; a step of a thread or a tick of the timer; the button to save, with the choices in the two
dialogs. -/
inductive WindowEvent where
  | read (choice : Option (Option Bytes)) (junk : Nat → DisplayHit)
  | act (a : RingActor)
  | save (picture spectrum : Option Path)

/-- What the file system allows: `fopen` succeeds; number of bytes for which there is room. -/
structure SaveEnv where
  opens : Path → Bool
  room : Path → Nat

namespace DisplayWindow

/-- The window after `MainWindow::MainWindow` (mainwindow.cpp:177-234). -/
def init (files : Path → Option SavedFile) : DisplayWindow := ⟨none, false, files⟩

/-- `fopen`, `fwrite`, `fclose` (mainwindow.cpp:351-353, 361-363): nothing is checked; `fwrite` to a null pointer is undefined. -/
def write (env : SaveEnv) (files : Path → Option SavedFile) (p : Option Path) (content : SavedFile) : Res (Path → Option SavedFile) :=
  match p with
  | none => .ok files
  | some p =>
    if env.opens p then
      .ok (Function.update files p (some (match content with | .bytes b => .bytes (b.take (env.room p)) | .indeterminate => .indeterminate)))
    else .ub .oobWrite

/-- `handlereadfile` (mainwindow.cpp:279-313): the counts and both arrays are set to zero and the threads started.  `filetohits` does not check
`fopen`; undefined behaviour of it anywhere in the file counts from the start. -/
def read (s : DisplayWindow) (choice : Option (Option Bytes)) (junk : Nat → DisplayHit) : Res DisplayWindow :=
  if s.timer then .ok s
  else match choice with
    | none => .ok s
    | some none => .ub .oobRead
    | some (some file) => (fileToHits file).bind fun p => .ok { s with last := some (p, Ring.init junk), timer := true }

/-- A step of a thread, or `handletimer` (mainwindow.cpp:266-275). -/
def act (s : DisplayWindow) (a : RingActor) : DisplayWindow :=
  match s.last with
  | none => s
  | some (p, r) => match a with
    | .timer => if s.timer then { s with last := some (p, r.timerStep), timer := !(r.fileDone && r.clusterDone) } else s
    | a => { s with last := some (p, r.step p.hits a) }

/-- `handlesavedata` (mainwindow.cpp:325-367). -/
def save (env : SaveEnv) (cos sin : F64) (s : DisplayWindow) (picture spectrum : Option Path) : Res DisplayWindow :=
  if s.timer then .ok s
  else match s.last with
    | none => do
      let f ← write env s.files picture (.bytes (pictureBytes []))
      let f ← write env f spectrum .indeterminate
      return { s with files := f }
    | some (p, r) => do
      let w ← HitWorker.init.run cos sin r.got
      let f ← write env s.files picture (.bytes (pictureBytes w.shown))
      let f ← write env f spectrum (.bytes (spectrumBytes p.tofs))
      return { s with files := f }

def step (env : SaveEnv) (cos sin : F64) (s : DisplayWindow) : WindowEvent → Res DisplayWindow
  | .read c junk => s.read c junk
  | .act a => .ok (s.act a)
  | .save p t => s.save env cos sin p t

/-- All that happens, one after the other. -/
def run (env : SaveEnv) (cos sin : F64) (s : DisplayWindow) : List WindowEvent → Res DisplayWindow
  | [] => .ok s
  | e :: es => (s.step env cos sin e).bind fun s' => run env cos sin s' es

end DisplayWindow
end Verif
