import Verif.Model.Base

/-!
# Files on which the display program reads what was never set

In terms of the bytes of the file only.
-/

namespace Verif.Spec

/-- Eight bytes that start with `TPX` and whose last two, as signed numbers, count at least one packet of eight bytes. -/
def AsksForPackets (b : Bytes) : Prop :=
  b.take 3 = [0x54#8, 0x50#8, 0x58#8] ∧ 8 ≤ 256 * (b.getD 7 0).toInt + (b.getD 6 0).toInt

instance (b : Bytes) : Decidable (AsksForPackets b) := inferInstanceAs (Decidable (_ ∧ _))

/-- Group `k` of eight bytes. -/
def group (file : Bytes) (k : Nat) : Bytes := (file.drop (8 * k)).take 8

/-- A file of fewer than eight bytes that starts like a header as far as it goes. -/
def ShortHeader (file : Bytes) : Prop :=
  file.length < 8 ∧ file ≠ [] ∧ file.take 3 = [0x54#8, 0x50#8, 0x58#8].take file.length

instance (file : Bytes) : Decidable (ShortHeader file) := inferInstanceAs (Decidable (_ ∧ _ ∧ _))

/-- The first group that asks for packets is not followed by eight bytes: it is the last whole group, or the incomplete one at the
end, which is taken together with the end of the group before. -/
def NothingFollows (file : Bytes) : Prop :=
  ∃ k, (∀ j < k, ¬ AsksForPackets (group file j)) ∧
    ((8 * k + 8 ≤ file.length ∧ file.length < 8 * k + 16 ∧ AsksForPackets (group file k)) ∨
     (1 ≤ k ∧ 8 * k < file.length ∧ file.length < 8 * k + 8 ∧
        AsksForPackets (group file k ++ (group file (k - 1)).drop (file.length - 8 * k))))

end Verif.Spec
