import Verif.Model.Image
import Verif.Model.Tiff

/-!
# Configuration (SophireadCLI/src/json_config_parser.cpp, SophireadCLI/src/user_config.cpp)

The JSON library is modelled from its documented behaviour on values already parsed: `value` with a pointer returns the
default when the pointer does not resolve, throws on a value of the wrong type, and converts numbers with
`static_cast`.  The reading of JSON text is in `Model/JsonText.lean`.
-/

namespace Verif

/-- A JSON value as the library stores it: non-negative integers, negative integers and other numbers are different
kinds.  Objects have unique keys; the first of equal keys counts here. -/
inductive Json where
  | null
  | bool (b : Bool)
  | uint (n : U64)
  | int (n : U64)
  | float (x : F64)
  | str (s : String)
  | arr (l : List Json)
  | obj (l : List (String × Json))

/-- Result of following a JSON pointer with `at`. -/
inductive Found where
  | found (j : Json)
  /-- `out_of_range`: key absent or value without members -/
  | outOfRange
  /-- `parse_error`: a name used as index of an array -/
  | parseError

/-- `json_pointer::get_checked` for tokens that are no numbers. -/
def Json.getChecked : Json → List String → Found
  | j, [] => .found j
  | .obj l, t :: ts => match l.lookup t with
    | some j => j.getChecked ts
    | none => .outOfRange
  | .arr _, _ :: _ => .parseError
  | _, _ :: _ => .outOfRange

/-- `get<double>()`. -/
def Json.asDouble : Json → Res F64
  | .uint n => .ok (F64.ofInt n.toNat)
  | .int n => .ok (F64.ofInt n.toInt)
  | .float x => .ok x
  | _ => .throws "type_error.302"

/-- `get<unsigned long>()`: negative numbers wrap. -/
def Json.asU64 : Json → Res U64
  | .uint n => .ok n
  | .int n => .ok n
  | .float x => match x.toU64? with
    | some n => .ok (BitVec.ofNat 64 n)
    | none => .ub .floatToInt
  | _ => .throws "type_error.302"

/-- `get<int>()`: integers are truncated to 32 bits. -/
def Json.asInt : Json → Res Int
  | .uint n => .ok (n.setWidth 32).toInt
  | .int n => .ok (n.setWidth 32).toInt
  | .float x => match x.toI32? with
    | some n => .ok n
    | none => .ub .floatToInt
  | .bool b => .ok (if b then 1 else 0)
  | _ => .throws "type_error.302"

/-- `get<std::vector<double>>()`. -/
def Json.asDoubles : Json → Res (List F64)
  | .arr l => l.mapM Json.asDouble
  | _ => .throws "type_error.302"

/-- `value(pointer, default)`. -/
def Json.value {α : Type} (j : Json) (ts : List String) (conv : Json → Res α) (dflt : α) : Res α := match j with
  | .obj _ => match j.getChecked ts with
    | .found v => conv v
    | .outOfRange => .ok dflt
    | .parseError => .throws "parse_error.109"
  | _ => .throws "type_error.306"

/-- `value(key, default)`. -/
def Json.valueKey {α : Type} (j : Json) (k : String) (conv : Json → Res α) (dflt : α) : Res α := match j with
  | .obj l => match l.lookup k with
    | some v => conv v
    | none => .ok dflt
  | _ => .throws "type_error.306"

/-- `DEFAULT_TOF_MAX = 16.7e-3` (json_config_parser.h:46). -/
def defaultTofMax : F64 := F64.ofRat (167 / 10000)

/-- `parseTOFBinning` (json_config_parser.cpp:105-118), on the default-constructed member.  `contains` is true for what `at` would find,
and false where `at` would throw. -/
def parseTofBinning (j : Json) : Res TofBinning :=
  match j.getChecked ["tof_imaging", "bin_edges"] with
  | .found e => e.asDoubles.bind fun l => .ok { TofBinning.default with custom := l }
  | _ => match j.getChecked ["tof_imaging", "uniform_bins"] with
    | .found u =>
      (u.valueKey "num_bins" Json.asInt 1500).bind fun n =>
      (u.valueKey "end" Json.asDouble defaultTofMax).bind fun m =>
      .ok { TofBinning.default with numBins := some n, tofMax := some m }
    | _ => .ok { TofBinning.default with numBins := some 1500, tofMax := some defaultTofMax }

/-- Constructor (json_config_parser.cpp:58-61): the tree and the binning. -/
structure JsonConfig where
  root : Json
  binning : TofBinning

def JsonConfig.make (j : Json) : Res JsonConfig := (parseTofBinning j).bind fun b => .ok ⟨j, b⟩

/-- `getABSRadius` (json_config_parser.cpp:67-69). -/
def JsonConfig.radius (c : JsonConfig) : Res F64 := c.root.value ["abs", "radius"] Json.asDouble (F64.ofRat 5)

/-- `getABSMinClusterSize` (json_config_parser.cpp:75-78). -/
def JsonConfig.minClusterSize (c : JsonConfig) : Res U64 := c.root.value ["abs", "min_cluster_size"] Json.asU64 1#64

/-- `getABSSpiderTimeRange` (json_config_parser.cpp:84-87). -/
def JsonConfig.spiderTimeRange (c : JsonConfig) : Res U64 := c.root.value ["abs", "spider_time_range"] Json.asU64 75#64

/-- `getTOFBinEdges` (json_config_parser.cpp:93-95). -/
def JsonConfig.binEdges (c : JsonConfig) : Res (List F64) := c.binning.getBinEdges

/-- `getSuperResolution` (json_config_parser.cpp:97-100). -/
def JsonConfig.superResolution (c : JsonConfig) : Res F64 :=
  c.root.value ["tof_imaging", "super_resolution"] Json.asDouble (F64.ofRat 1)

/-- `createDefault` (json_config_parser.cpp:18-30). -/
def defaultJson : Json := .obj
  [("abs", .obj [("radius", .float (F64.ofRat 5)), ("min_cluster_size", .uint 1#64), ("spider_time_range", .uint 75#64)]),
   ("tof_imaging", .obj [("uniform_bins", .obj [("num_bins", .uint 1500#64), ("end", .float defaultTofMax)]),
      ("super_resolution", .float (F64.ofRat 1))])]

/-! ## Text format -/

/-- `isspace` in the C locale. -/
def isSpace (c : Char) : Bool := c = ' ' ∨ c = '\t' ∨ c = '\n' ∨ c = '\x0b' ∨ c = '\x0c' ∨ c = '\r'

def isDigit (c : Char) : Bool := '0' ≤ c ∧ c ≤ '9'

/-- `ss >> name` (user_config.cpp:99-101): skip white space, take up to the next white space. -/
def firstWord (l : List Char) : List Char × List Char :=
  let l := l.dropWhile isSpace
  (l.takeWhile (!isSpace ·), l.dropWhile (!isSpace ·))

/-- Optional sign: is it a minus, and the rest. -/
def takeSign : List Char → Bool × List Char
  | '-' :: l => (true, l)
  | '+' :: l => (false, l)
  | l => (false, l)

/-- Value of a string of digits. -/
def digitsVal (l : List Char) : Nat := Nat.ofDigitChars 10 l 0

/-- `ss >> value` for an `int`: `none` when only white space is left, in which case `value` is not written; 0 without
digits; the nearest limit on overflow. -/
def extractInt (l : List Char) : Option Int :=
  match l.dropWhile isSpace with
  | [] => none
  | c :: cs =>
    let (neg, l) := takeSign (c :: cs)
    let n : Int := digitsVal (l.takeWhile isDigit)
    some (if neg then max (-n) (-2 ^ 31) else min n (2 ^ 31 - 1))

/-- Largest finite double. -/
def maxDouble : ℚ := (2 ^ 53 - 1) * 2 ^ (971 : ℤ)

/-- The exponent part after the mantissa: its value, or `none` for an `e` without digits. -/
def takeExp : List Char → Option Int
  | c :: l => if c = 'e' ∨ c = 'E' then
      let (neg, l) := takeSign l
      let d := l.takeWhile isDigit
      if d = [] then none else some (if neg then -(digitsVal d : Int) else digitsVal d)
    else some 0
  | [] => some 0

/-- The digits after the point, if there is one, and the rest. -/
def takeFrac : List Char → List Char × List Char
  | '.' :: r => (r.takeWhile isDigit, r.dropWhile isDigit)
  | r => ([], r)

/-- `ss >> value` for a `double`: as for `int`; the text taken is sign, digits, point, digits, exponent, and it counts as 0
when it is no complete number; the nearest finite value on overflow. -/
def extractDouble (l : List Char) : Option F64 :=
  match l.dropWhile isSpace with
  | [] => none
  | c :: cs =>
    let (neg, l) := takeSign (c :: cs)
    let ip := l.takeWhile isDigit
    let r := l.dropWhile isDigit
    let (fp, r) := takeFrac r
    some (if ip ++ fp = [] then .fin 0
      else match takeExp r with
        | none => .fin 0
        | some e =>
          let q : ℚ := digitsVal (ip ++ fp) / 10 ^ fp.length * (10 : ℚ) ^ e
          match F64.ofRat (if neg then -q else q) with
          | .inf s => .fin (if s then -maxDouble else maxDouble)
          | x => x)

/-- Members of `UserConfig` (user_config.h:64-69). -/
structure UserConfig where
  radius : F64
  minClusterSize : U64
  spiderTimeRange : U64
  binning : TofBinning
  superResolution : F64

/-- Default constructor (user_config.cpp:23-28). -/
def UserConfig.default : UserConfig := ⟨F64.ofRat 5, 1#64, 75#64, TofBinning.default, F64.ofRat 1⟩

/-- Conversion of an `int` argument to `unsigned long` (user_config.h:27, 34). -/
def intToU64 (n : Int) : U64 := BitVec.ofInt 64 n

/-- One line (user_config.cpp:99-129).  The values of `tof_bins` and `tof_max` are read and dropped. -/
def userLine (c : UserConfig) (line : List Char) : Res UserConfig :=
  let (name, rest) := firstWord line
  if name.head? = some '#' then .ok c
  else if name = "abs_radius".toList then match extractDouble rest with
    | some v => .ok { c with radius := v }
    | none => .ub .indeterminate
  else if name = "abs_min_cluster_size".toList then match extractInt rest with
    | some v => .ok { c with minClusterSize := intToU64 v }
    | none => .ub .indeterminate
  else if name = "spider_time_range".toList then match extractInt rest with
    | some v => .ok { c with spiderTimeRange := intToU64 v }
    | none => .ub .indeterminate
  else .ok c

/-- The loop over the lines (user_config.cpp:98-130). -/
def userLines : UserConfig → List (List Char) → Res UserConfig
  | c, [] => .ok c
  | c, l :: ls => (userLine c l).bind fun c => userLines c ls

end Verif
