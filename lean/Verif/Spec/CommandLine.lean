import Verif.Spec.Config

/-!
# Specification of a command line

Written from the usage text and the conventions for short options; nothing of the model is used.
-/

namespace Verif.Spec

/-- Something the user sets: a switch, or a letter with a value. -/
inductive CliSetting where
  | switch (c : Char)
  | value (c : Char) (v : List Char)
  deriving DecidableEq

/-- Letters of the usage text. -/
def valueLetters : List Char := "iHEuTfmtsc".toList
def switchLetters : List Char := "dv".toList

/-- A word that is no option. -/
def PlainWord (a : List Char) : Prop := a.head? ≠ some '-' ∨ a = ['-']

/-- The words of a command line that write down the settings, in order: `values` are the letters with a value, `switches`
those without.  Plain words may stand between them. -/
inductive Written (values switches : List Char) : List CliSetting → List (List Char) → Prop where
  | nil : Written values switches [] []
  | plain {ss rest} (a) : PlainWord a → Written values switches ss rest → Written values switches ss (a :: rest)
  | flags {ss rest} (cs) : cs ≠ [] → (∀ c ∈ cs, c ∈ switches) → Written values switches ss rest →
      Written values switches (cs.map .switch ++ ss) (('-' :: cs) :: rest)
  | separate {ss rest} (cs c v) : (∀ c ∈ cs, c ∈ switches) → c ∈ values → Written values switches ss rest →
      Written values switches (cs.map .switch ++ .value c v :: ss) (('-' :: (cs ++ [c])) :: v :: rest)
  | attached {ss rest} (cs c v) : (∀ c ∈ cs, c ∈ switches) → c ∈ values → v ≠ [] → Written values switches ss rest →
      Written values switches (cs.map .switch ++ .value c v :: ss) (('-' :: (cs ++ c :: v)) :: rest)
  | stop (rest) : Written values switches [] (['-', '-'] :: rest)

/-- The value for letter `c`, if the setting is one. -/
def CliSetting.valueFor (c : Char) : CliSetting → Option (List Char)
  | .value c' v => if c' = c then some v else none
  | .switch _ => none

/-- The last value given for a letter. -/
def lastValue (ss : List CliSetting) (c : Char) : Option (List Char) := (ss.filterMap (CliSetting.valueFor c)).getLast?

/-- The last value given for a letter, or a default. -/
def valueOr (ss : List CliSetting) (c : Char) (dflt : String) : List Char := (lastValue ss c).getD dflt.toList

/-- What has to hold of the settings together. -/
def SettingsValid (ss : List CliSetting) : Prop :=
  valueOr ss 'i' "" ≠ [] ∧ valueOr ss 'm' "neutron" ∈ ["hit".toList, "neutron".toList] ∧
    valueOr ss 't' "tdc" ∈ ["gdc".toList, "tdc".toList]

end Verif.Spec
