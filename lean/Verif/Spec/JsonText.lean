import Verif.Spec.Config

/-!
# The grammar of JSON (RFC 8259)

Texts are lists of bytes (byte `b` is the character with code `b`).  `Parses` is the grammar of the standard with the
value of each phrase; it uses from the model only the type of JSON values.
-/

namespace Verif.Spec

open Verif

/-- White space (RFC 8259, section 2). -/
def Space (l : List Char) : Prop := ∀ c ∈ l, c = ' ' ∨ c = '\t' ∨ c = '\n' ∨ c = '\r'

/-! ## Strings -/

/-- UTF-8 of a code point (RFC 3629). -/
def utf8 (n : Nat) : List Nat :=
  if n < 0x80 then [n]
  else if n < 0x800 then [0xc0 + n / 64, 0x80 + n % 64]
  else if n < 0x10000 then [0xe0 + n / 4096, 0x80 + n / 64 % 64, 0x80 + n % 64]
  else [0xf0 + n / 262144, 0x80 + n / 4096 % 64, 0x80 + n / 64 % 64, 0x80 + n % 64]

/-- A code point of Unicode that is not one half of a surrogate pair. -/
def Scalar (n : Nat) : Prop := n < 0xd800 ∨ (0xdfff < n ∧ n ≤ 0x10ffff)

/-- The bytes as characters. -/
def bytes (l : List Nat) : List Char := l.map Char.ofNat

/-- The hexadecimal digit has the value. -/
def HexDigit (c : Char) (n : Nat) : Prop :=
  n < 16 ∧ (c = ("0123456789abcdef".toList[n]?).getD ' ' ∨ c = ("0123456789ABCDEF".toList[n]?).getD ' ')

/-- Four hexadecimal digits with the value. -/
def Hex4 (l : List Char) (n : Nat) : Prop :=
  ∃ a b c d x y z w, l = [a, b, c, d] ∧ HexDigit a x ∧ HexDigit b y ∧ HexDigit c z ∧ HexDigit d w ∧
    n = ((x * 16 + y) * 16 + z) * 16 + w

/-- The two-character escapes. -/
def escapes : List (Char × Char) := [('"', '"'), ('\\', '\\'), ('/', '/'), ('b', Char.ofNat 8), ('f', Char.ofNat 12),
  ('n', Char.ofNat 10), ('r', Char.ofNat 13), ('t', Char.ofNat 9)]

/-- One element of a string and the bytes it stands for (RFC 8259, section 7). -/
inductive Element : List Char → List Char → Prop where
  /-- any code point except control characters, quote and backslash -/
  | plain {n : Nat} : Scalar n → 0x20 ≤ n → n ≠ 0x22 → n ≠ 0x5c → Element (bytes (utf8 n)) (bytes (utf8 n))
  | escape {c d : Char} : (c, d) ∈ escapes → Element ['\\', c] [d]
  | unicode {h : List Char} {n : Nat} : Hex4 h n → Scalar n → Element ('\\' :: 'u' :: h) (bytes (utf8 n))
  /-- a surrogate pair -/
  | pair {g h : List Char} {m n : Nat} : Hex4 g (0xd800 + m) → Hex4 h (0xdc00 + n) → m < 1024 → n < 1024 →
      Element ('\\' :: 'u' :: g ++ '\\' :: 'u' :: h) (bytes (utf8 (0x10000 + m * 1024 + n)))

/-- The inside of a string and the bytes it stands for. -/
inductive Chars : List Char → List Char → Prop where
  | nil : Chars [] []
  | cons {t s ts ss : List Char} : Element t s → Chars ts ss → Chars (t ++ ts) (s ++ ss)

/-! ## Numbers -/

/-- Digits without superfluous zeros. -/
def Whole (l : List Char) : Prop := l = ['0'] ∨ ∃ c r, l = c :: r ∧ '1' ≤ c ∧ c ≤ '9' ∧ ∀ d ∈ r, Digit d

/-- The fraction with the point: its digits. -/
def Fraction (t fp : List Char) : Prop := t = '.' :: fp ∧ fp ≠ [] ∧ ∀ d ∈ fp, Digit d

/-- The text of a number with its parts (RFC 8259, section 6): sign, whole part, fraction, exponent. -/
def NumberText (t : List Char) (neg : Bool) (ip : List Char) (fp : Option (List Char)) (e : Option Int) : Prop :=
  ∃ tf te, t = (if neg then ['-'] else []) ++ ip ++ tf ++ te ∧ Whole ip ∧
    (match fp with | none => tf = [] | some fp => Fraction tf fp) ∧
    (match e with | none => te = [] | some e => Exponent te e)

/-- The value of a number: an integer of 64 bits if it is written as an integer and is one, otherwise the nearest double,
which must be finite. -/
inductive Number : List Char → Json → Prop where
  | unsigned {t ip} : NumberText t false ip none none → numeral ip < 2 ^ 64 →
      Number t (.uint (BitVec.ofNat 64 (numeral ip)))
  | negative {t ip} : NumberText t true ip none none → numeral ip ≤ 2 ^ 63 →
      Number t (.int (BitVec.ofInt 64 (-(numeral ip : Int))))
  | real {t neg ip fp e q} : NumberText t neg ip fp e →
      (fp = none → e = none → if neg then 2 ^ 63 < numeral ip else 2 ^ 64 ≤ numeral ip) →
      F64.ofRat (decimal neg ip (fp.getD []) (e.getD 0)) = .fin q → Number t (.float (.fin q))

/-! ## Values -/

/-- The members of an object that are not repeated later. -/
def latest : List (String × Json) → List (String × Json)
  | [] => []
  | p :: ps => if p.1 ∈ ps.map (·.1) then latest ps else p :: latest ps

/-- What a phrase stands for. -/
inductive Phrase where
  | value (j : Json)
  | elements (l : List Json)
  | members (l : List (String × Json))

/-- The grammar (RFC 8259, sections 3 to 5).  Of members of the same name the last counts. -/
inductive Parses : List Char → Phrase → Prop where
  | null : Parses "null".toList (.value .null)
  | true : Parses "true".toList (.value (.bool true))
  | false : Parses "false".toList (.value (.bool false))
  | number {t j} : Number t j → Parses t (.value j)
  | string {t s} : Chars t s → Parses ('"' :: t ++ ['"']) (.value (.str (String.ofList s)))
  | emptyArray {w} : Space w → Parses ('[' :: w ++ [']']) (.value (.arr []))
  | array {t l} : Parses t (.elements l) → Parses ('[' :: t ++ [']']) (.value (.arr l))
  | emptyObject {w} : Space w → Parses ('{' :: w ++ ['}']) (.value (.obj []))
  | object {t l} : Parses t (.members l) → Parses ('{' :: t ++ ['}']) (.value (.obj (latest l)))
  | lastElement {w t v j} : Space w → Space v → Parses t (.value j) → Parses (w ++ t ++ v) (.elements [j])
  | element {w t v ts j l} : Space w → Space v → Parses t (.value j) → Parses ts (.elements l) →
      Parses (w ++ t ++ v ++ ',' :: ts) (.elements (j :: l))
  | lastMember {w k v u t x key j} : Space w → Space v → Space u → Space x → Chars k key → Parses t (.value j) →
      Parses (w ++ '"' :: k ++ '"' :: v ++ ':' :: u ++ t ++ x) (.members [(String.ofList key, j)])
  | member {w k v u t x ts key j l} : Space w → Space v → Space u → Space x → Chars k key → Parses t (.value j) →
      Parses ts (.members l) →
      Parses (w ++ '"' :: k ++ '"' :: v ++ ':' :: u ++ t ++ x ++ ',' :: ts) (.members ((String.ofList key, j) :: l))

/-- A text of the standard: a value with white space around it. -/
def IsJson (text : List Char) (j : Json) : Prop :=
  ∃ w t v, text = w ++ t ++ v ∧ Space w ∧ Space v ∧ Parses t (.value j)

/-- The byte order mark of UTF-8. -/
def bom : List Char := bytes (utf8 0xfeff)

/-- The text does not go on with a character that would belong to a number. -/
def EndsNumber (rest : List Char) : Prop :=
  ∀ c ∈ rest.head?, ¬ Digit c ∧ c ≠ '.' ∧ c ≠ 'e' ∧ c ≠ 'E'

/-- The setting at the path has the value, or is absent and the value is the default. -/
def Given {α : Type} (j : Json) (path : List String) (is : Json → α → Prop) (dflt x : α) : Prop :=
  match memberAt j path with
  | none => x = dflt
  | some v => is v x

/-- A non-negative integer of 64 bits. -/
def IsCount (j : Json) (n : U64) : Prop := j = .uint n

/-- The path of a file with an extension: a directory part, a name, a point and the extension. -/
def HasExtension (p ext : List Char) : Prop :=
  ∃ dir name, p = dir ++ name ++ '.' :: ext ∧ (dir = [] ∨ ∃ d, dir = d ++ ['/']) ∧ '/' ∉ name ∧ name ≠ [] ∧ '/' ∉ ext ∧
    '.' ∉ ext ∧ ¬ (name = ['.'] ∧ ext = [])

end Verif.Spec
