/-!
# Data races (C++17, [intro.races])

An execution is a list of actions in the order in which they happened, each by one thread and with the memory that it
touches other than through atomic or self-synchronising objects, and a relation "synchronises with".  The specification
does not mention any program.
-/

namespace Verif.Spec

/-- A read or a write of the location `loc`. -/
structure Access (L : Type) where
  loc : L
  write : Bool
  deriving DecidableEq, Repr

/-- An action of a thread with its non-atomic accesses. -/
structure Action (L : Type) where
  thread : Nat
  touches : List (Access L)

structure Execution (L : Type) where
  actions : List (Action L)
  /-- action number `i` synchronises with action number `j` -/
  sync : Nat → Nat → Prop

/-- "Happens before": program order and synchronisation, closed under transitivity. -/
inductive HappensBefore {L : Type} (x : Execution L) : Nat → Nat → Prop
  | program {i j : Nat} {a b : Action L} : i < j → x.actions[i]? = some a → x.actions[j]? = some b →
      a.thread = b.thread → HappensBefore x i j
  | sync {i j : Nat} : i < j → x.sync i j → HappensBefore x i j
  | trans {i j k : Nat} : HappensBefore x i j → HappensBefore x j k → HappensBefore x i k

/-- Two accesses to `l`, at least one of them a write. -/
def ConflictAt {L : Type} (l : L) (a b : Action L) : Prop :=
  ∃ p ∈ a.touches, ∃ q ∈ b.touches, p.loc = l ∧ q.loc = l ∧ (p.write = true ∨ q.write = true)

/-- Conflicting accesses to `l` in different threads, neither of which happens before the other. -/
def RaceOn {L : Type} (x : Execution L) (l : L) : Prop :=
  ∃ i j a b, i < j ∧ x.actions[i]? = some a ∧ x.actions[j]? = some b ∧ a.thread ≠ b.thread ∧ ConflictAt l a b ∧
    ¬ HappensBefore x i j ∧ ¬ HappensBefore x j i

/-- No data race; otherwise the behaviour is undefined. -/
def RaceFree {L : Type} (x : Execution L) : Prop := ∀ l, ¬ RaceOn x l

/-- A list of accesses describes a step from `s` to `s'` of a system whose memory is `value`: nothing else is written. -/
def OnlyWrites {L V S : Type} (value : S → L → V) (ts : List (Access L)) (s s' : S) : Prop :=
  ∀ l, (∀ p ∈ ts, p.loc = l → p.write = false) → value s' l = value s l

/-- … and what is written depends on what is read (and on the thread's own position) only: two steps that read the same
write the same. -/
def OnlyReads {L V S : Type} (value : S → L → V) (ts : List (Access L)) (s t s' t' : S) : Prop :=
  (∀ p ∈ ts, p.write = false → value s p.loc = value t p.loc) →
    ∀ p ∈ ts, p.write = true → value s' p.loc = value t' p.loc

end Verif.Spec
