import Verif.Text.Check

/-
The entropy source of schema/random.cpp and the random key source of schema/random.hpp.
-/

namespace Verif.Keys
open Verif Verif.Text

/-- random.hpp 11-16, `bitcoind_entropy`, and the generator behind it: `rng k` are the 32 bytes of the `k`th call of
`GetStrongRandBytes`, and `asked` is how many calls there were. -/
structure Entropy where
  data : Bytes := List.replicate 32 0
  position : BitVec 32 := 32
  asked : Nat := 0
  deriving DecidableEq

/-- random.cpp 16-26, the loop and what follows it.  `out` is what has been written to the caller's buffer, in which there is room
for `left` more.  The difference of 32 and the position is one of unsigned numbers of 32 bits.  Undefined are: copying from past the
end of the data, and copying to past the end of the buffer; the count of bytes left to write would then be less than none.  `fuel`
bounds the passes of the loop, each of which but the first writes 32 bytes. -/
def Entropy.loop (rng : Nat → Bytes) : Nat → Entropy → Bytes → Nat → Option (Bytes × Entropy)
  | 0, _, _, _ => none
  | fuel + 1, s, out, left =>
    let room := (32 - s.position).toNat
    if room > left then
      if s.position.toNat > 32 ∨ room > left then none
      else Entropy.loop rng fuel ⟨rng s.asked, 0, s.asked + 1⟩ (out ++ s.data.drop s.position.toNat) (left - room)
    else if left > 32 then none
    else some (out ++ s.data.take left, { s with position := s.position + BitVec.ofNat 32 left })

/-- random.cpp 7-28, `bitcoind_entropy::read`; `none` is undefined behaviour.  Line 10 declares a function and calls nothing. -/
def Entropy.read (rng : Nat → Bytes) (s : Entropy) (size : Nat) : Option (Bytes × Entropy) := s.loop rng (size + 2) [] size

/-- Reads of the given sizes one after the other, with all that was read. -/
def Entropy.reads (rng : Nat → Bytes) (s : Entropy) : List Nat → Option (List Bytes × Entropy)
  | [] => some ([], s)
  | n :: l =>
    match s.read rng n with
    | none => none
    | some (b, s') =>
      match Entropy.reads rng s' l with
      | none => none
      | some (bs, s'') => some (b :: bs, s'')

/-- random.hpp 28-36, `random_key_source::next`, with the 32 bytes that the source of entropy gives each time; `none` if the loop
is still running when all of them have been used.  The network of `x` is not set before the loop is over (wif.hpp 117). -/
def nextKey (net : Net) (compressed : Bool) : List Bytes → Option (Secret × List Bytes)
  | [] => none
  | b :: l =>
    let x : Secret := { Secret.none with key := b }
    if x.valid then some (⟨net, b, compressed⟩, l) else nextKey net compressed l

end Verif.Keys
