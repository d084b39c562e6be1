import Mathlib.Data.Nat.Notation
import Mathlib.Data.List.Basic

/-! # Files that say a version (C117) -/

namespace Verif.Spec

/-- The line defines `name` as the number `n`: blanks between the words, perhaps a remark without digits at the end. -/
def Defines (name line : List Char) (n : ℕ) : Prop :=
  ∃ k j rest, line = "#define".toList ++ List.replicate (k + 1) ' ' ++ name ++ List.replicate (j + 1) ' ' ++ Nat.toDigits 10 n ++ rest ∧
    ∀ c ∈ rest, c.isDigit = false

/-- The line looks like a definition of `name` or of a name that starts like it, with anything that a pattern may take for a
blank. -/
def Mentions (name line : List Char) : Prop :=
  ∃ gap rest, line = "#define".toList ++ gap ++ name ++ rest ∧ ∀ c ∈ gap, c = ' ' ∨ c = '\t' ∨ c = '\\' ∨ c = 't'

/-- The file defines `name` as `n` in one line and mentions it in no other. -/
def Says (file : List (List Char)) (name : List Char) (n : ℕ) : Prop :=
  ∃ before line behind, file = before ++ line :: behind ∧ Defines name line n ∧ ∀ l ∈ before ++ behind, ¬ Mentions name l

/-- Major, minor and patch number. -/
structure Triple where
  major : ℕ
  minor : ℕ
  patch : ℕ
  deriving DecidableEq, Repr

/-- A version file. -/
structure VersionFile (file : List (List Char)) (v : Triple) : Prop where
  major : Says file "VERSION_MAJOR".toList v.major
  minor : Says file "VERSION_MINOR".toList v.minor
  patch : Says file "VERSION_PATCH".toList v.patch

/-- The three parts of a version. -/
inductive Part
  | major | minor | patch
  deriving DecidableEq, Repr

/-- Their words. -/
def Part.word : Part → List Char
  | .major => "major".toList
  | .minor => "minor".toList
  | .patch => "patch".toList

/-- The number of a part. -/
def Triple.number (v : Triple) : Part → Nat
  | .major => v.major
  | .minor => v.minor
  | .patch => v.patch

/-- The next version. -/
def Triple.next (v : Triple) : Part → Triple
  | .major => ⟨v.major + 1, 0, 0⟩
  | .minor => ⟨v.major, v.minor + 1, 0⟩
  | .patch => ⟨v.major, v.minor, v.patch + 1⟩

/-- The order of versions. -/
def Triple.Less (v w : Triple) : Prop :=
  v.major < w.major ∨ v.major = w.major ∧ (v.minor < w.minor ∨ v.minor = w.minor ∧ v.patch < w.patch)

/-- `2.3.0`. -/
def Triple.text (v : Triple) : List Char := Nat.toDigits 10 v.major ++ ['.'] ++ Nat.toDigits 10 v.minor ++ ['.'] ++ Nat.toDigits 10 v.patch

/-- An option of the script that is no action. -/
def IsFlag (a : List Char) : Prop := a = "-s".toList ∨ a = "--script".toList ∨ a = "-d".toList ∨ a = "--dry-run".toList

instance (a : List Char) : Decidable (IsFlag a) := by unfold IsFlag; infer_instance

/-- The dry run is asked for. -/
def AsksDry (args : List (List Char)) : Prop := "-d".toList ∈ args ∨ "--dry-run".toList ∈ args

/-- No newline is asked for. -/
def AsksScript (args : List (List Char)) : Prop := "-s".toList ∈ args ∨ "--script".toList ∈ args

/-- A plain word. -/
def IsWord (a : List Char) : Prop := a ≠ [] ∧ a.head? ≠ some '-' ∧ ∀ c ∈ a, c ≠ ' ' ∧ c ≠ '\t' ∧ c ≠ '\n'

/-- A command line of options and plain words. -/
def CommandLine (args : List (List Char)) : Prop := ∀ a ∈ args, IsFlag a ∨ IsWord a

/-- The plain words in their order. -/
def plainWords (args : List (List Char)) : List (List Char) := args.filter fun a => !decide (IsFlag a)

end Verif.Spec
