import Verif.Model.CliMain
import Verif.Model.LegacySave

/-!
# From the text of a configuration file to the settings

`JSONConfigParser::fromFile` (SophireadCLI/src/json_config_parser.cpp:37-52) reads with `file >> config`.  The JSON library
is not part of the repository; this file models the reader of nlohmann::json 3.x from its documentation: `operator>>`
parses one value, does not look at what follows it, and raises an exception of the library when there is none.  The
library's parser keeps an explicit stack and builds the tree through references; here it is a recursive function with
the number of characters as a bound on the depth (`Props/JsonText.lean` shows that the bound is never reached).

A text is a list of bytes; byte `b` is the character with code `b`, and a string of the library is written in the same
way.
-/

namespace Verif

/-! ## Tokens -/

/-- `skip_whitespace` of the lexer. -/
def jsonSpace (c : Char) : Bool := c = ' ' || c = '\t' || c = '\n' || c = '\r'

def skipSpace (l : List Char) : List Char := l.dropWhile jsonSpace

/-- Value of a hexadecimal digit. -/
def hexVal (c : Char) : Option Nat :=
  if '0' ≤ c ∧ c ≤ '9' then some (c.toNat - 48)
  else if 'A' ≤ c ∧ c ≤ 'F' then some (c.toNat - 55)
  else if 'a' ≤ c ∧ c ≤ 'f' then some (c.toNat - 87)
  else none

/-- `get_codepoint`: four hexadecimal digits. -/
def getCodepoint : List Char → Option (Nat × List Char)
  | a :: b :: c :: d :: l =>
    (hexVal a).bind fun a => (hexVal b).bind fun b => (hexVal c).bind fun c => (hexVal d).bind fun d =>
      some ((a <<< 12) + (b <<< 8) + (c <<< 4) + d, l)
  | _ => none

/-- The bytes that `scan_string` adds for a code point. -/
def addCodepoint (cp : Nat) : List Char :=
  if cp < 0x80 then [Char.ofNat cp]
  else if cp ≤ 0x7ff then [Char.ofNat (0xc0 ||| (cp >>> 6)), Char.ofNat (0x80 ||| (cp &&& 0x3f))]
  else if cp ≤ 0xffff then
    [Char.ofNat (0xe0 ||| (cp >>> 12)), Char.ofNat (0x80 ||| ((cp >>> 6) &&& 0x3f)), Char.ofNat (0x80 ||| (cp &&& 0x3f))]
  else
    [Char.ofNat (0xf0 ||| (cp >>> 18)), Char.ofNat (0x80 ||| ((cp >>> 12) &&& 0x3f)),
      Char.ofNat (0x80 ||| ((cp >>> 6) &&& 0x3f)), Char.ofNat (0x80 ||| (cp &&& 0x3f))]

/-- After `\u`. -/
def lexUnicode (l : List Char) : Option (List Char × List Char) :=
  (getCodepoint l).bind fun p =>
    if 0xd800 ≤ p.1 ∧ p.1 ≤ 0xdbff then match p.2 with
      | '\\' :: 'u' :: l => (getCodepoint l).bind fun q =>
        if 0xdc00 ≤ q.1 ∧ q.1 ≤ 0xdfff then some (addCodepoint ((p.1 <<< 10) + q.1 - 0x35fdc00), q.2) else none
      | _ => none
    else if 0xdc00 ≤ p.1 ∧ p.1 ≤ 0xdfff then none
    else some (addCodepoint p.1, p.2)

/-- The escapes of one letter. -/
def simpleEscape (c : Char) : Option Char :=
  if c = '"' then some '"' else if c = '\\' then some '\\' else if c = '/' then some '/'
  else if c = 'b' then some '\x08' else if c = 'f' then some '\x0c' else if c = 'n' then some '\n'
  else if c = 'r' then some '\r' else if c = 't' then some '\t' else none

/-- After a backslash. -/
def lexEscape : List Char → Option (List Char × List Char)
  | [] => none
  | c :: l => if c = 'u' then lexUnicode l else (simpleEscape c).map fun d => ([d], l)

/-- The ranges that `scan_string` requires of the bytes after a first byte; `none`: a byte that must not be there. -/
def followers (n : Nat) : Option (List (Nat × Nat)) :=
  if n < 0x20 then none
  else if n ≤ 0x7f then some []
  else if n < 0xc2 then none
  else if n ≤ 0xdf then some [(0x80, 0xbf)]
  else if n = 0xe0 then some [(0xa0, 0xbf), (0x80, 0xbf)]
  else if n = 0xed then some [(0x80, 0x9f), (0x80, 0xbf)]
  else if n ≤ 0xef then some [(0x80, 0xbf), (0x80, 0xbf)]
  else if n = 0xf0 then some [(0x90, 0xbf), (0x80, 0xbf), (0x80, 0xbf)]
  else if n ≤ 0xf3 then some [(0x80, 0xbf), (0x80, 0xbf), (0x80, 0xbf)]
  else if n = 0xf4 then some [(0x80, 0x8f), (0x80, 0xbf), (0x80, 0xbf)]
  else none

/-- `next_byte_in_range`. -/
def nextBytes : List (Nat × Nat) → List Char → Option (List Char × List Char)
  | [], l => some ([], l)
  | _ :: _, [] => none
  | r :: rs, c :: l =>
    if r.1 ≤ c.toNat ∧ c.toNat ≤ r.2 then (nextBytes rs l).map fun p => (c :: p.1, p.2) else none

/-- One element of a string: the bytes it stands for and the rest of the text. -/
def lexChar : List Char → Option (List Char × List Char)
  | [] => none
  | c :: l =>
    if c = '\\' then lexEscape l
    else (followers c.toNat).bind fun rs => (nextBytes rs l).map fun p => (c :: p.1, p.2)

/-- `scan_string` after the opening quote. -/
def lexString : Nat → List Char → Option (List Char × List Char)
  | 0, _ => none
  | _ + 1, [] => none
  | n + 1, c :: l =>
    if c = '"' then some ([], l)
    else (lexChar (c :: l)).bind fun p => (lexString n p.2).map fun q => (p.1 ++ q.1, q.2)

/-- The digits before the point. -/
def lexWhole : List Char → Option (List Char × List Char)
  | [] => none
  | c :: l => if c = '0' then some ([c], l)
    else if isDigit c then some (c :: l.takeWhile isDigit, l.dropWhile isDigit) else none

/-- At least one digit. -/
def lexDigits (l : List Char) : Option (List Char × List Char) :=
  if l.takeWhile isDigit = [] then none else some (l.takeWhile isDigit, l.dropWhile isDigit)

/-- The digits after the point; empty without a point. -/
def lexFrac : List Char → Option (List Char × List Char)
  | [] => some ([], [])
  | c :: l => if c = '.' then lexDigits l else some ([], c :: l)

/-- The exponent, if there is one. -/
def lexExp : List Char → Option (Option Int × List Char)
  | [] => some (none, [])
  | c :: l => if c = 'e' ∨ c = 'E' then
      (lexDigits (takeSign l).2).map fun p =>
        (some (if (takeSign l).1 then -(digitsVal p.1 : Int) else digitsVal p.1), p.2)
    else some (none, c :: l)

/-- `value_float` of a number: `strtod`; a number out of range is an error. -/
def floatNumber (neg : Bool) (ip fp : List Char) (e : Int) : Option Json :=
  match F64.ofRat ((if neg then -1 else 1) * (digitsVal (ip ++ fp) / 10 ^ fp.length * (10 : ℚ) ^ e)) with
  | .fin q => some (.float (.fin q))
  | _ => none

/-- The kind of a number: unsigned, integer when negative, otherwise, or when out of range, floating point. -/
def numberValue (neg : Bool) (ip fp : List Char) (e : Option Int) : Option Json :=
  if fp = [] ∧ e = none then
    if neg then
      if digitsVal ip ≤ 2 ^ 63 then some (.int (BitVec.ofInt 64 (-(digitsVal ip : Int)))) else floatNumber neg ip fp 0
    else if digitsVal ip < 2 ^ 64 then some (.uint (BitVec.ofNat 64 (digitsVal ip))) else floatNumber neg ip fp 0
  else floatNumber neg ip fp (e.getD 0)

/-- Optional minus. -/
def takeMinus : List Char → Bool × List Char
  | [] => (false, [])
  | c :: l => if c = '-' then (true, l) else (false, c :: l)

/-- `scan_number`. -/
def lexNumber (l : List Char) : Option (Json × List Char) :=
  (lexWhole (takeMinus l).2).bind fun a => (lexFrac a.2).bind fun b => (lexExp b.2).bind fun c =>
    (numberValue (takeMinus l).1 a.1 b.1 c.1).map fun j => (j, c.2)

/-- `scan_literal`. -/
def lexLiteral (w : List Char) (j : Json) (l : List Char) : Option (Json × List Char) :=
  if w.isPrefixOf l then some (j, l.drop w.length) else none

/-! ## Values -/

/-- The elements of an array up to the closing bracket, with at least one. -/
def parseItems (pv : List Char → Option (Json × List Char)) : Nat → List Char → Option (List Json × List Char)
  | 0, _ => none
  | n + 1, l => (pv (skipSpace l)).bind fun p => match skipSpace p.2 with
    | [] => none
    | c :: r =>
      if c = ',' then (parseItems pv n r).map fun q => (p.1 :: q.1, q.2)
      else if c = ']' then some ([p.1], r) else none

/-- A name, a colon and a value. -/
def parseMember (pv : List Char → Option (Json × List Char)) (l : List Char) :
    Option ((String × Json) × List Char) :=
  match skipSpace l with
  | [] => none
  | c :: r => if c = '"' then (lexString (r.length + 1) r).bind fun k => match skipSpace k.2 with
      | [] => none
      | c :: r => if c = ':' then (pv (skipSpace r)).map fun p => ((String.ofList k.1, p.1), p.2) else none
    else none

/-- The members of an object up to the closing brace, with at least one. -/
def parseMembers (pv : List Char → Option (Json × List Char)) :
    Nat → List Char → Option (List (String × Json) × List Char)
  | 0, _ => none
  | n + 1, l => (parseMember pv l).bind fun p => match skipSpace p.2 with
    | [] => none
    | c :: r =>
      if c = ',' then (parseMembers pv n r).map fun q => (p.1 :: q.1, q.2)
      else if c = '}' then some ([p.1], r) else none

/-- `object[key] = value`: an earlier member of the same name is lost.  `std::map` keeps the members in the order of
their names, here they are in the order of the text. -/
def setMember (l : List (String × Json)) (p : String × Json) : List (String × Json) := l.filter (fun q => q.1 ≠ p.1) ++ [p]

/-- A value at the beginning of the text. -/
def parseValue : Nat → List Char → Option (Json × List Char)
  | 0, _ => none
  | _ + 1, [] => none
  | f + 1, c :: l =>
    if c = '{' then
      if (skipSpace l).head? = some '}' then some (.obj [], (skipSpace l).tail)
      else (parseMembers (parseValue f) (f + 1) l).map fun p => (.obj (p.1.foldl setMember []), p.2)
    else if c = '[' then
      if (skipSpace l).head? = some ']' then some (.arr [], (skipSpace l).tail)
      else (parseItems (parseValue f) (f + 1) l).map fun p => (.arr p.1, p.2)
    else if c = '"' then (lexString (l.length + 1) l).map fun p => (.str (String.ofList p.1), p.2)
    else if c = 't' then lexLiteral "true".toList (.bool true) (c :: l)
    else if c = 'f' then lexLiteral "false".toList (.bool false) (c :: l)
    else if c = 'n' then lexLiteral "null".toList .null (c :: l)
    else lexNumber (c :: l)

/-- `skip_bom`: the byte order mark of UTF-8 at the beginning. -/
def skipBom (l : List Char) : List Char :=
  if [Char.ofNat 0xef, Char.ofNat 0xbb, Char.ofNat 0xbf].isPrefixOf l then l.drop 3 else l

/-- `file >> config` (json_config_parser.cpp:45). -/
def readJson (text : List Char) : Option Json :=
  (parseValue (text.length + 1) (skipSpace (skipBom text))).map (·.1)

/-! ## Configuration files -/

/-- What a program finds at a path when it opens it: nothing there, something it may not read, or a text.  Opening a
directory succeeds and gives no text. -/
inductive ConfigFile where
  | missing
  | unreadable
  | text (l : List Char)

/-- `fromFile` (json_config_parser.cpp:37-52). -/
def JsonConfig.fromFile : ConfigFile → Res JsonConfig
  | .text l => match readJson l with
    | some j => JsonConfig.make j
    | none => .throws "Error parsing JSON file"
  | _ => .throws "Failed to open configuration file"

/-- `createDefault` (json_config_parser.cpp:18-30). -/
def JsonConfig.createDefault : Res JsonConfig := JsonConfig.make defaultJson

/-- `parseUserDefinedConfigurationFile` (user_config.cpp:79-139).  `exit(1)` has the effect of an exception caught in
`main`: no output and status 1. -/
def UserConfig.fromFile : ConfigFile → Res UserConfig
  | .missing => .throws "exit"
  | .unreadable => .ok UserConfig.default
  | .text l => userLines UserConfig.default (getLines l)

/-- `std::filesystem::path(p).extension()`. -/
def extensionOf (p : Path) : Path := (splitExt (splitDir p).2).2

/-- "Load configuration" and the first call of the getters (sophiread.cpp:191-213). -/
def cliSettings (fs : Path → ConfigFile) (p : Path) : Res Settings :=
  if p = [] then JsonConfig.createDefault.bind JsonConfig.settings
  else if extensionOf p = ".json".toList then (JsonConfig.fromFile (fs p)).bind JsonConfig.settings
  else (UserConfig.fromFile (fs p)).bind fun c => .ok c.settings

/-- The same in the automatic reducer (venus_auto_reducer.cpp:247-259): always JSON. -/
def reducerSettings (fs : Path → ConfigFile) (p : Path) : Res Settings :=
  if p = [] then JsonConfig.createDefault.bind JsonConfig.settings
  else (JsonConfig.fromFile (fs p)).bind JsonConfig.settings

end Verif
