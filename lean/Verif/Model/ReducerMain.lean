import Verif.Model.Reducer
import Verif.Model.CliMain

/-!
# The automatic reducer as a program (SophireadCLI/src/venus_auto_reducer.cpp:28-110, 228-276)

Log output is left out.
-/

namespace Verif

/-- `struct ProgramOptions` (venus_auto_reducer.cpp:28-37). -/
structure RedOptions where
  input : Path := []
  output : Path := []
  configFile : Path := []
  base : Path := "tof_image".toList
  tofMode : List Char := "neutron".toList
  interval : Int := 5
  verbose : Bool := false
  debug : Bool := false
  deriving DecidableEq

/-- The string `"i:o:u:f:m:c:dv"` (venus_auto_reducer.cpp:61). -/
def redArgLetters : List Char := ['i', 'o', 'u', 'f', 'm', 'c']
def redFlagLetters : List Char := ['d', 'v']

/-- Body of the loop (venus_auto_reducer.cpp:62-90). -/
def applyRedItem (o : RedOptions) : OptItem → Res RedOptions
  | .flag 'd' => .ok { o with debug := true }
  | .flag 'v' => .ok { o with verbose := true }
  | .arg 'i' v => .ok { o with input := v }
  | .arg 'o' v => .ok { o with output := v }
  | .arg 'u' v => .ok { o with configFile := v }
  | .arg 'f' v => .ok { o with base := v }
  | .arg 'm' v => .ok { o with tofMode := v }
  | .arg 'c' v => (stoi v).bind fun n => .ok { o with interval := n }
  | _ => .throws "Invalid argument"

def applyRedItems : RedOptions → List OptItem → Res RedOptions
  | o, [] => .ok o
  | o, i :: is => (applyRedItem o i).bind fun o' => applyRedItems o' is

/-- The checks after the loop (venus_auto_reducer.cpp:93-107). -/
def redValidate (o : RedOptions) : Res RedOptions :=
  if o.input = [] ∨ o.output = [] then .throws "Missing required arguments"
  else if o.tofMode ≠ "hit".toList ∧ o.tofMode ≠ "neutron".toList then .throws "Invalid TOF mode"
  else if o.interval ≤ 0 then .throws "Check interval"
  else .ok o

/-- `parse_arguments` (venus_auto_reducer.cpp:57-110) on the words after the program name. -/
def redParse (argv : List Arg) : Res RedOptions :=
  (applyRedItems {} (getoptGo redArgLetters redFlagLetters none argv)).bind redValidate

/-- The context of a run, from options and configuration (venus_auto_reducer.cpp:248-266). -/
def RedOptions.ctx (o : RedOptions) (s : Settings) (solve : List GaussRow → F64 × F64) (edges : List F64) : RedCtx :=
  ⟨s.params, solve, s.sr, edges, String.ofList o.tofMode, o.output, o.base⟩

/-- `main` (venus_auto_reducer.cpp:228-276): listings, files before, state after, and the exit code, if the program has
ended.  `conf` is the configuration (a function of the path, empty for the default); a configuration whose bin edges
cannot be computed lets every file fail and is left out here.  `lost`: the directory cannot be listed any more. -/
inductive RedMain (argv : List Arg) (conf : Path → Res Settings) (solve : List GaussRow → F64 × F64) :
    List (List DirEntry × List DirEntry) → Dir → RedState → Option Nat → Prop where
  | badArgs {m d} : redParse argv = .throws m → RedMain argv conf solve [] d (RedState.init d) (some 1)
  | badConf {o m d} : redParse argv = .ok o → conf o.configFile = .throws m →
      RedMain argv conf solve [] d (RedState.init d) (some 1)
  | run {o s es rs d s' st} : redParse argv = .ok o → conf o.configFile = .ok s → s.edges = .ok es →
      MonRun (o.ctx s solve es) rs (RedState.init d) s' st →
      RedMain argv conf solve rs d s' (match st with | .running => none | .stopped => some 0 | .exited => some 1)
  | lost {o s es rs d s'} : redParse argv = .ok o → conf o.configFile = .ok s → s.edges = .ok es →
      MonRun (o.ctx s solve es) rs (RedState.init d) s' .running → RedMain argv conf solve rs d s' (some 1)

end Verif
