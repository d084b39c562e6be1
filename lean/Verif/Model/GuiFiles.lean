import Verif.Model.DisplayWindow
import Verif.Model.LegacySave

/-!
# The files that the graphical program of the legacy library saves (SophireadGUI/src/mainwindow.cpp:196-242)

`Model/Gui.lean` says what is given to be written; here are the bytes and the disk.
-/

namespace Verif

/-- What `fwrite` of `swaphisto` writes (mainwindow.cpp:219-230): element `512 * i + j` is `my2dhisto[512 * j + i]`. -/
def guiPictureBytes (histo : Nat → F64) : Bytes :=
  (List.range (512 * 512)).flatMap fun k => bytesOf (BitVec.ofNat 64 (f64Bits (histo (512 * (k % 512) + k / 512))))

namespace Gui

/-- `fopen`, `fwrite`, `fclose` (mainwindow.cpp:229-231): nothing is checked. -/
def savePicture (env : SaveEnv) (g : Gui) (p : Option Path) (d : Disk) : Res Disk :=
  match p with
  | none => .ok d
  | some p => if env.opens p then .ok (Function.update d p (some (.other ((guiPictureBytes g.histo).take (env.room p))))) else .ub .oobRead

/-- `handlesavedata` (mainwindow.cpp:200-242): the disk afterwards, and the exception that leaves the slot.  `none` is a dialog that was
cancelled, `fault` the number of the HDF5 call that fails. -/
def saveFiles (env : SaveEnv) (fault : Option Nat) (g : Gui) (picture events : Option Path) (d : Disk) : Res (Disk × Option String) :=
  if g.timer then .ok (d, none)
  else (g.savePicture env picture d).bind fun d' =>
    match events with
    | none => .ok (d', none)
    | some e => .ok (saveLegacyEvents fault e g.events d')

end Gui

/-- What the user does: read a file, save under these names, change the range of the colours. -/
inductive GuiDeed where
  | read (c : OpenChoice)
  | save (picture events : Option Path) (fault : Option Nat)
  | range

/-- A session with the disk; no window is left when an exception has ended the program. -/
def guiSession (env : SaveEnv) (solve : List GaussRow → F64 × F64) (cos sin : F64) : Gui → Disk → List GuiDeed → Res (Option Gui × Disk)
  | g, d, [] => .ok (some g, d)
  | g, d, .read c :: as =>
    match g.readFile solve cos sin c with
    | .ok g' => guiSession env solve cos sin g' d as
    | .throws _ => .ok (none, d)
    | .ub u => .ub u
  | g, d, .save p e fault :: as =>
    match g.saveFiles env fault p e d with
    | .ok (d', none) => guiSession env solve cos sin g d' as
    | .ok (d', some _) => .ok (none, d')
    | .throws _ => .ok (none, d)
    | .ub u => .ub u
  | g, d, .range :: as => guiSession env solve cos sin g d as

end Verif
