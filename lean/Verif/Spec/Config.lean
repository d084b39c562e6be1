import Verif.Model.Config

/-!
# Specification vocabulary for configuration files

Uses from the model only the types of JSON values and doubles.
-/

namespace Verif.Spec

open Verif

/-- Member of nested objects. -/
def memberAt : Json → List String → Option Json
  | j, [] => some j
  | .obj l, t :: ts => (l.lookup t).bind fun j => memberAt j ts
  | _, _ :: _ => none

/-- The JSON value is a number and `x` its value as a double. -/
inductive IsDouble : Json → F64 → Prop where
  | uint (n : U64) (h : n.toNat ≤ 2 ^ 53) : IsDouble (.uint n) (.fin n.toNat)
  | int (n : U64) (h : |n.toInt| ≤ 2 ^ 53) : IsDouble (.int n) (.fin n.toInt)
  | float (x : F64) : IsDouble (.float x) x

/-- The JSON value as a 32-bit integer: integers modulo 2^32, other numbers without their fraction. -/
inductive IsInt32 : Json → Int → Prop where
  | uint (n : U64) (k : Int) (h : -2 ^ 31 ≤ k ∧ k < 2 ^ 31) (e : ∃ m : Int, n.toNat = k + m * 2 ^ 32) : IsInt32 (.uint n) k
  | int (n : U64) (k : Int) (h : -2 ^ 31 ≤ k ∧ k < 2 ^ 31) (e : ∃ m : Int, n.toInt = k + m * 2 ^ 32) : IsInt32 (.int n) k
  | float (q : ℚ) (k : Int) (h : -2 ^ 31 ≤ k ∧ k < 2 ^ 31) (e1 : 0 ≤ q → k ≤ q ∧ q < k + 1) (e2 : q < 0 → q ≤ k ∧ k < q + 1) :
      IsInt32 (.float (.fin q)) k
  | true : IsInt32 (.bool true) 1
  | false : IsInt32 (.bool false) 0

/-- A JSON object whose sections, if there, are objects. -/
def WellFormed (j : Json) : Prop :=
  (∃ l, j = .obj l) ∧ (∀ v, memberAt j ["abs"] = some v → ∃ l, v = .obj l) ∧
    (∀ v, memberAt j ["tof_imaging"] = some v → ∃ l, v = .obj l)

/-- The edges of `n` uniform bins up to `m`, each computed with two roundings. -/
def UniformEdges (n : Nat) (m : F64) (edges : List F64) : Prop :=
  edges.length = n + 1 ∧ ∀ i, i ≤ n → edges[i]? = some (F64.div (F64.mul m (F64.ofInt i)) (F64.ofInt n))

/-! ## Text -/

def Blank (c : Char) : Prop := c = ' ' ∨ c = '\t' ∨ c = '\n' ∨ c = '\x0b' ∨ c = '\x0c' ∨ c = '\r'

/-- The line has first word `name` and second word `val`. -/
def Setting (line name val : List Char) : Prop :=
  ∃ w1 w2 tail, line = w1 ++ name ++ w2 ++ val ++ tail ∧ (∀ c ∈ w1, Blank c) ∧ (∀ c ∈ w2, Blank c) ∧ w2 ≠ [] ∧
    (∀ c ∈ name, ¬ Blank c) ∧ name ≠ [] ∧ (∀ c ∈ val, ¬ Blank c) ∧ val ≠ [] ∧ (∀ c ∈ tail.head?, Blank c)

/-- The first word of the line is `name` (empty for a line of blanks). -/
def FirstWord (line name : List Char) : Prop :=
  ∃ w1 tail, line = w1 ++ name ++ tail ∧ (∀ c ∈ w1, Blank c) ∧ (∀ c ∈ name, ¬ Blank c) ∧ (∀ c ∈ tail.head?, Blank c) ∧
    (name = [] → tail = [])

def Digit (c : Char) : Prop := '0' ≤ c ∧ c ≤ '9'

/-- Value of a digit. -/
def digitValue (c : Char) : Nat := c.toNat - 48

/-- Value of a decimal numeral. -/
def numeral (l : List Char) : Nat := l.foldl (fun a c => 10 * a + digitValue c) 0

/-- The exponent with its letter. -/
def Exponent (t : List Char) (e : Int) : Prop :=
  ∃ c s ds, t = c :: s ++ ds ∧ (c = 'e' ∨ c = 'E') ∧ ds ≠ [] ∧ (∀ d ∈ ds, Digit d) ∧
    (((s = [] ∨ s = ['+']) ∧ e = numeral ds) ∨ (s = ['-'] ∧ e = -(numeral ds : Int)))

/-- `ip.fp * 10 ^ e` -/
def decimal (neg : Bool) (ip fp : List Char) (e : Int) : ℚ :=
  (if neg then -1 else 1) * (numeral (ip ++ fp) / 10 ^ fp.length * (10 : ℚ) ^ e)

/-- `val` is a decimal number of value `q`: sign, digits with or without a point, exponent. -/
def Decimal (val : List Char) (q : ℚ) : Prop :=
  ∃ (sign ip tf fp te : List Char) (e : Int), (sign = [] ∨ sign = ['+'] ∨ sign = ['-']) ∧ ip ++ fp ≠ [] ∧
    (∀ c ∈ ip, Digit c) ∧ (∀ c ∈ fp, Digit c) ∧ (tf = [] ∧ fp = [] ∨ tf = '.' :: fp) ∧ (te = [] ∧ e = 0 ∨ Exponent te e) ∧
    val = sign ++ ip ++ tf ++ te ∧ q = decimal (sign = ['-']) ip fp e

/-- `val` is a non-negative decimal integer of value `n`. -/
def Integer (val : List Char) (n : Nat) : Prop := val ≠ [] ∧ (∀ c ∈ val, Digit c) ∧ numeral val = n

/-- `v` is the value given by the last line that gives one, or the default. -/
inductive LastValue {α : Type} (gives : List Char → α → Prop) (dflt : α) : List (List Char) → α → Prop where
  | none : LastValue gives dflt [] dflt
  | set {ls line v} : gives line v → LastValue gives dflt (ls ++ [line]) v
  | skip {ls line v} : (∀ w, ¬ gives line w) → LastValue gives dflt ls v → LastValue gives dflt (ls ++ [line]) v

/-- The line sets the radius to the double nearest to a decimal number. -/
def GivesRadius (line : List Char) (x : F64) : Prop :=
  ∃ val q, Setting line "abs_radius".toList val ∧ Decimal val q ∧ |q| ≤ 2 ^ 1000 ∧ x = F64.ofRat q

/-- The line sets the integer setting `name` to a number an `int` can hold. -/
def GivesCount (name : String) (line : List Char) (x : U64) : Prop :=
  ∃ val n, Setting line name.toList val ∧ Integer val n ∧ n < 2 ^ 31 ∧ x = BitVec.ofNat 64 n

/-- A blank line, a comment, or a line that starts with another word. -/
def Neutral (line : List Char) : Prop :=
  ∃ name, FirstWord line name ∧ name ≠ "abs_radius".toList ∧ name ≠ "abs_min_cluster_size".toList ∧
    name ≠ "spider_time_range".toList

end Verif.Spec
