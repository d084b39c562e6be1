import Verif.Model.Text

/-!
# The release script (sophiread/scripts/version.sh)

A POSIX shell with GNU `grep` and `sed`, as on Linux.  A file is the list of its lines (the pieces between newlines, so that a
final newline gives an empty last piece; no pattern of the script matches an empty line).  The lines are plain text.  Arguments with
wildcard characters, which the unquoted `${PARAMS}` would expand to names of files, are not considered, nor are failures to write.
-/

namespace Verif

/-- What remains of `l` after the prefix `p`. -/
def after? : List Char → List Char → Option (List Char)
  | [], l => some l
  | _ :: _, [] => none
  | c :: p, d :: l => if c = d then after? p l else none

/-- `#define`. -/
def defineWord : List Char := "#define".toList

/-- `[ \t]` in a pattern of `grep`: a blank, a backslash or the letter t (version.sh:63). -/
def grepBlank (c : Char) : Bool := c == ' ' || c == '\\' || c == 't'

/-- `[ \t]` in a pattern of GNU `sed`: a blank or a tab (version.sh:91). -/
def sedBlank (c : Char) : Bool := c == ' ' || c == '\t'

/-- `^#define\([ \t]*\)NAME` (version.sh:63).  The names start with a letter that is not in the bracket, so that the longest run of
the bracket is the only one to try. -/
def grepDefine (name line : List Char) : Bool :=
  match after? defineWord line with
  | none => false
  | some r => (after? name (r.dropWhile grepBlank)).isSome

/-- `get_version_part` (version.sh:61-70): the digits of the first line that matches; `none` is the failure. -/
def getPart (name : List Char) (file : List (List Char)) : Option (List Char) :=
  match file.find? (grepDefine name) with
  | none => none
  | some l => if l.filter Char.isDigit = [] then none else some (l.filter Char.isDigit)

/-- `s/\(^#define[ \t]*NAME\)[ \t]*\([0-9]*\)/\1 VALUE/g` on one line (version.sh:91). -/
def commitLine (name value line : List Char) : List Char :=
  match after? defineWord line with
  | none => line
  | some r =>
    match after? name (r.dropWhile sedBlank) with
    | none => line
    | some t => defineWord ++ r.takeWhile sedBlank ++ name ++ ' ' :: value ++ (t.dropWhile sedBlank).dropWhile Char.isDigit

/-- `commit_version_part` (version.sh:85-97): the new file, and whether the check afterwards succeeds. -/
def commitPart (name value : List Char) (file : List (List Char)) : Bool × List (List Char) :=
  let file' := file.map (commitLine name value)
  (getPart name file' == some value, file')

def majorName : List Char := "VERSION_MAJOR".toList
def minorName : List Char := "VERSION_MINOR".toList
def patchName : List Char := "VERSION_PATCH".toList

/-- The variables `VERSION_MAJOR`, `VERSION_MINOR`, `VERSION_PATCH`. -/
structure VersionVars where
  major : List Char
  minor : List Char
  patch : List Char
  deriving DecidableEq, Repr

/-- `get_version` (version.sh:75-80); with `set -e` a failure ends the script. -/
def getVersion (file : List (List Char)) : Option VersionVars :=
  match getPart majorName file with
  | none => none
  | some a => match getPart minorName file with
    | none => none
    | some b => match getPart patchName file with
      | none => none
      | some c => some ⟨a, b, c⟩

/-- `commit_version` (version.sh:101-108): patch, minor, major; the script ends at the first check that fails. -/
def commitVersion (v : VersionVars) (file : List (List Char)) : Bool × List (List Char) :=
  let r1 := commitPart patchName v.patch file
  if r1.1 then
    let r2 := commitPart minorName v.minor r1.2
    if r2.1 then commitPart majorName v.major r2.2 else r2
  else r1

/-- A variable in an arithmetic expansion: octal after a leading zero; `none` is an error. -/
def shellNum? : List Char → Option Nat
  | '0' :: c :: cs => if (c :: cs).all fun d => d.isDigit && d.toNat < 56 then some (Nat.ofDigitChars 8 (c :: cs) 0) else none
  | s => some (Nat.ofDigitChars 10 s 0)

/-- `$((X+1))` (version.sh:143, 148, 152) for digits `X`; sums of 63 bits and more, on which shells differ, count as errors. -/
def shellInc (s : List Char) : Option (List Char) :=
  match shellNum? s with
  | none => none
  | some n => if n + 1 < 2 ^ 63 then some (natText (n + 1)) else none

/-- The `case` of `bump_version` (version.sh:141-157); an empty word counts as `patch`. -/
def bumpVars (part : List Char) (v : VersionVars) : Option VersionVars :=
  if part = "major".toList then (shellInc v.major).map fun m => ⟨m, ['0'], ['0']⟩
  else if part = "minor".toList then (shellInc v.minor).map fun m => ⟨v.major, m, ['0']⟩
  else if part = "patch".toList ∨ part = [] then (shellInc v.patch).map fun m => ⟨v.major, v.minor, m⟩
  else none

/-- The text of a version (version.sh:118). -/
def versionText (v : VersionVars) : List Char := v.major ++ '.' :: v.minor ++ '.' :: v.patch

/-- What the script leaves: exit code, standard output, version file. -/
structure ShellEnd where
  code : Nat
  out : List Char
  file : Option (List (List Char))
  deriving DecidableEq, Repr

/-- `print_version` with a word (version.sh:115-137); `none` is `die`. -/
def printVersion (lf part : List Char) (v : VersionVars) : Option (List Char) :=
  if part = [] then some (versionText v ++ lf)
  else if part = "major".toList then some (v.major ++ lf)
  else if part = "minor".toList then some (v.minor ++ lf)
  else if part = "patch".toList then some (v.patch ++ lf)
  else none

/-- `bump_version` (version.sh:139-165). -/
def bumpVersion (lf : List Char) (dry : Bool) (part : List Char) (v : VersionVars) (file : List (List Char)) : ShellEnd :=
  match bumpVars part v with
  | none => ⟨1, [], some file⟩
  | some w =>
    if dry then ⟨0, versionText w ++ lf, some file⟩
    else
      let r := commitVersion w file
      if r.1 then ⟨0, versionText w ++ lf, some r.2⟩ else ⟨1, [], some r.2⟩

/-- The version in the changelog (version.sh:171). -/
def changelogVersion (log : List (List Char)) : List Char :=
  match log.find? fun l => (after? "sophiread (".toList l).isSome with
  | none => []
  | some l => l.filter fun c => c.isDigit || c == '.'

/-- `check_version` (version.sh:167-180). -/
def checkVersion (lf : List Char) (v : VersionVars) (log file : List (List Char)) : ShellEnd :=
  if changelogVersion log = versionText v then
    ⟨0, "Changelog version (".toList ++ changelogVersion log ++ ") OK!".toList ++ lf, some file⟩
  else ⟨1, [], some file⟩

/-- The text of `print_usage` on standard output (version.sh:33-50) is left out: a fixed text. -/
def usageText : List Char := "Usage".toList

/-- `parse_command` (version.sh:187-214). -/
def parseCommand (lf : List Char) (dry : Bool) (words : List (List Char)) (file log : List (List Char)) : ShellEnd :=
  match words with
  | [] => ⟨1, usageText, some file⟩
  | action :: more =>
    let part := more.headD []
    if action = "print".toList then
      match getVersion file with
      | none => ⟨1, [], some file⟩
      | some v => match printVersion lf part v with
        | none => ⟨1, [], some file⟩
        | some t => ⟨0, t, some file⟩
    else if action = "release".toList then
      match getVersion file with
      | none => ⟨1, [], some file⟩
      | some v => bumpVersion lf dry part v file
    else if action = "check".toList then
      match getVersion file with
      | none => ⟨1, [], some file⟩
      | some v => checkVersion lf v log file
    else ⟨1, [], some file⟩

/-- The loop over the arguments (version.sh:231-253): script mode, dry run, `PARAMS`; `none` is `die`.  What follows `--` is
dropped by line 256. -/
def versionArgs : List (List Char) → Bool → Bool → List Char → Option (Bool × Bool × List Char)
  | [], s, d, p => some (s, d, p)
  | a :: as, s, d, p =>
    if a = "-s".toList ∨ a = "--script".toList then versionArgs as true d p
    else if a = "-d".toList ∨ a = "--dry-run".toList then versionArgs as s true p
    else if a = "--".toList then some (s, d, p)
    else if a.head? = some '-' then none
    else versionArgs as s d (p ++ ' ' :: a)

/-- Splitting into words at blanks, tabs and newlines (the unquoted `${PARAMS}`, version.sh:259). -/
def shellWords : List Char → List Char → List (List Char)
  | cur, [] => if cur = [] then [] else [cur]
  | cur, c :: cs =>
    if c = ' ' ∨ c = '\t' ∨ c = '\n' then (if cur = [] then shellWords [] cs else cur :: shellWords [] cs)
    else shellWords (cur ++ [c]) cs

/-- The script (version.sh:222-261) with the version file and the changelog that exist. -/
def versionMain (args : List (List Char)) (file log : Option (List (List Char))) : ShellEnd :=
  if args = [] then ⟨0, usageText, file⟩
  else
    match versionArgs args false false [] with
    | none => ⟨1, [], file⟩
    | some (s, d, p) =>
      match file, log with
      | some f, some l => parseCommand (if s then [] else ['\n']) d (shellWords [] p) f l
      | _, _ => ⟨1, [], file⟩

/-- `VERSION_NUMBER` (include/version.h:19-21) for values that fit: `(major << 16) | (minor << 8) | patch`. -/
def versionNumber (a b c : Nat) : Nat := (a <<< 16) ||| (b <<< 8) ||| c

end Verif
