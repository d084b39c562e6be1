import Mathlib.Logic.Function.Basic
import Verif.Model.Legacy
import Verif.Model.LegacyAbs

/-!
# The graphical program of the legacy library (SophireadGUI/src/mainwindow.cpp, include/mainwindow.h)

Plotting, labels and text on the console are left out; the plot shares the memory of `my2dhisto`.  An exception that leaves
a slot ends the program, as Qt does not catch it.
-/

namespace Verif

/-- Members of `MainWindow` (mainwindow.h:41-60): whether `mytimer` is active, `clustering_alg`, `m_events` and
`my2dhisto`, which has 512 * 512 elements (mainwindow.cpp:44-49 with `DSCALE` 1.0). -/
structure Gui where
  timer : Bool
  alg : AbsObj
  events : List Neutron
  histo : Nat → F64

/-- Answer to the dialog for the file to read. -/
inductive OpenChoice where
  | cancelled
  | unreadable
  | file (content : Bytes)

/-- Answer to a dialog for the file to save to. -/
inductive SaveChoice where
  | cancelled
  | unwritable
  | file
  deriving DecidableEq

/-- What the user does (mainwindow.cpp:74-78). -/
inductive GuiAction where
  | read (c : OpenChoice)
  | save (picture events : SaveChoice)
  | range

/-- What gets written to files: the 512 * 512 numbers of the picture, and the events for `saveEventsToHDF5`. -/
inductive GuiOutput where
  | picture (values : Nat → F64)
  | events (es : List Neutron)

namespace Gui

/-- After the constructor (mainwindow.cpp:30-79): a `QVector` is filled with zeros. -/
def init : Gui := ⟨false, AbsObj.new ⟨F64.ofRat 5, 1, 75⟩, [], fun _ => F64.ofRat 0⟩

/-- Turned position of an event (mainwindow.cpp:156-165); `ROTANGLE` is not zero (mainwindow.h:19). -/
def turned (cos sin : F64) (e : Neutron) : F64 × F64 :=
  (F64.sub (F64.mul e.x cos) (F64.mul e.y sin), F64.add (F64.mul e.x sin) (F64.mul e.y cos))

/-- One event (mainwindow.cpp:155-171). -/
def addEvent (cos sin : F64) (h : Nat → F64) (e : Neutron) : Res (Nat → F64) :=
  let p := turned cos sin e
  if F64.le (F64.ofRat 0) p.1 && F64.lt p.1 (F64.ofInt 512) && F64.le (F64.ofRat 0) p.2 && F64.lt p.2 (F64.ofInt 512) then
    match p.1.toI32?, p.2.toI32? with
    | some ix, some iy =>
      let k := 512 * ix + iy
      if 0 ≤ k ∧ k < 512 * 512 then .ok (Function.update h k.toNat (F64.add (h k.toNat) (F64.ofRat 1))) else .ub .oobWrite
    | _, _ => .ub .floatToInt
  else .ok h

/-- All events (mainwindow.cpp:154-172), in the order in which the threads get to the atomic increments. -/
def addEvents (cos sin : F64) : (Nat → F64) → List Neutron → Res (Nat → F64)
  | h, [] => .ok h
  | h, e :: es => (addEvent cos sin h e).bind fun h' => addEvents cos sin h' es

/-- `handlereadfile` (mainwindow.cpp:106-181).  `solve` is the least-squares solver of the unused other method. -/
def readFile (solve : List GaussRow → F64 × F64) (cos sin : F64) (g : Gui) (c : OpenChoice) : Res Gui :=
  if g.timer then .ok g
  else match c with
    | .cancelled => .ok { g with timer := true }
    | .unreadable => .throws "Error opening file"
    | .file content => do
      let hits ← readTimepix3RawData content
      let alg ← g.alg.legacyFit hits
      let events ← alg.legacyEvents solve hits
      let histo ← addEvents cos sin g.histo events
      .ok { timer := false, alg := alg, events := events, histo := histo }

/-- `handlesavedata` (mainwindow.cpp:200-241): the picture with its axes swapped, then the events.  Writing to a picture
file that cannot be opened dereferences a null pointer. -/
def save (g : Gui) (picture events : SaveChoice) : Res (List GuiOutput) :=
  if g.timer then .ok []
  else do
    let a ← (match picture with
      | .cancelled => .ok []
      | .unwritable => .ub .oobRead
      | .file => .ok [GuiOutput.picture fun k => g.histo (512 * (k % 512) + k / 512)] : Res (List GuiOutput))
    let b ← (match events with
      | .cancelled => .ok []
      | .unwritable => .throws (if g.events = [] then "No events to save" else "H5::FileIException")
      | .file => if g.events = [] then .throws "No events to save" else .ok [GuiOutput.events g.events] : Res (List GuiOutput))
    .ok (a ++ b)

/-- One action. -/
def act (solve : List GaussRow → F64 × F64) (cos sin : F64) (g : Gui) : GuiAction → Res (Gui × List GuiOutput)
  | .read c => (g.readFile solve cos sin c).bind fun g' => .ok (g', [])
  | .save p e => (g.save p e).bind fun out => .ok (g, out)
  | .range => .ok (g, [])

/-- Actions one after the other, with all that is written. -/
def run (solve : List GaussRow → F64 × F64) (cos sin : F64) : Gui → List GuiAction → Res (Gui × List GuiOutput)
  | g, [] => .ok (g, [])
  | g, a :: as => do
    let r ← g.act solve cos sin a
    let q ← run solve cos sin r.1 as
    .ok (q.1, r.2 ++ q.2)

end Gui
end Verif
