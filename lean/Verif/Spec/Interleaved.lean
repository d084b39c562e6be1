import Verif.Spec.Peak
import Verif.Spec.Stream
import Verif.Model.Tpx3

/-!
# Specification of interleaved neutrons
-/

namespace Verif.Spec

open Verif

/-- Numbers given in order of first use: each is one of the earlier ones or the count of the different earlier ones. -/
def Numbered (ls : List Int) : Prop :=
  ∀ i (h : i < ls.length), ls[i] ∈ ls.take i ∨ ls[i] = (ls.take i).toFinset.card

instance (ls : List Int) : Decidable (Numbered ls) := by unfold Numbered; infer_instance

/-- `neutron` tells for every hit which neutron caused it.  Read one by one, a hit that is not the first of its neutron is
within `range` ns of the first one and within `r` of the bounding box of the earlier ones, and fewer than `most` other
neutrons have started since. -/
def Coherent (range : Nat) (r : ℚ) (most : Nat) (hits : List Hit) (neutron : List Int) : Prop :=
  ∀ i (hi : i < hits.length) (hi' : i < neutron.length), neutron[i] ∈ neutron.take i →
    Matches range r (hits.take i) (neutron.take i) neutron[i] hits[i] ∧
      (notEarlier (hits.take i) (neutron.take i) neutron[i]).card < most

/-- No hit is within `range` ns of a hit of another neutron and also within `r` of the bounding box of that neutron's hits. -/
def NeutronsApart (range : Nat) (r : ℚ) (hits : List Hit) (neutron : List Int) : Prop :=
  ∀ i (hi : i < hits.length) (hi' : i < neutron.length), ∀ n ∈ neutron, n ≠ neutron[i] →
    ¬ NearBox r (members hits neutron n) hits[i] ∨
      ∀ g ∈ members hits neutron n, (range : Int) < |arrivalNs hits[i] - arrivalNs g|

/-- The assignment of hits to neutrons `neutron` is one that can be recovered from the hits. -/
structure Resolved (range : Nat) (r : ℚ) (hits : List Hit) (neutron : List Int) : Prop where
  length : neutron.length = hits.length
  numbered : Numbered neutron
  coherent : Coherent range r 7 hits neutron
  apart : NeutronsApart range (r + 1 / 2 ^ 32) hits neutron

/-- The hits of every neutron, in order of their first hits; without those that have fewer than `minSize` hits or a total
time over threshold of 0. -/
def visible (minSize : Nat) (hits : List Hit) (neutron : List Int) : List (List Hit) :=
  ((List.range neutron.toFinset.card).map fun (n : Nat) => members hits neutron n).filter fun M =>
    minSize ≤ M.length ∧ total Hit.tot M ≠ 0

/-- The hits of every chunk of a stream, with the times carried along. -/
def chunkHits (m : Mode) : Times → List Chunk → List (List Hit)
  | _, [] => []
  | t, k :: ks =>
    (match m with | .gdc => hitsG (headerChipId k.header) t k.packets | .tdc => hitsT (headerChipId k.header) t k.packets) ::
      chunkHits m (match m with | .gdc => timesG t k.packets | .tdc => timesT t k.packets) ks

end Verif.Spec
