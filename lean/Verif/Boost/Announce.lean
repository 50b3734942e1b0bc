import Verif.Boost.Redeem

/-
When a Boost puzzle is valid and how long its inputs are expected to be: boost/boost.cpp 388-396 and 430-435,
include/gigamonkey/boost/boost.hpp 768-770.
-/

namespace Verif.Boost

open Verif Script Work Sig Pay Keys Text

variable {P : Type} [AddCommGroup P]

/-- `candidate::valid`, boost.hpp 768-770; nothing if reading the script throws.  The set of previous outputs is valid if each is, which is
that its digest is not zero, timechain.hpp 160-162; that this is so of a set is taken from the data library. -/
def Candidate.valid (c : Candidate) : Option Bool :=
  if c.prevouts.length > 0 ∧ c.prevouts.all (fun u => u.reference.digest != 0) then
    (Output.read c.script).map Output.valid
  else some false

/-- `puzzle::valid`, boost.cpp 388-396; nothing if reading the script throws. -/
def BPuzzle.valid (E : Ecdsa P) (hash160 : Bytes → Bytes) (p : BPuzzle) : Option Bool :=
  match p.candidate.valid with
  | none => none
  | some v =>
    if !v || !p.key.valid then some false
    else
      match Output.read p.candidate.script with
      | none => none
      | some o => some (o.valid && (o.kind == .bounty || o.hash == digest160 hash160 (E.pubkeyOf p.key)))

/-- `puzzle::expected_size`, boost.cpp 430-435; nothing if reading the script throws.  The sizes are `size_t`; a puzzle has not so many
outputs that they would not fit. -/
def BPuzzle.expectedSize (p : BPuzzle) : Option Nat :=
  (Output.read p.candidate.script).map fun o =>
    let n := Boost.expectedSize o.kind o.useBits p.key.compressed
    varIntSize p.candidate.prevouts.length + p.candidate.prevouts.length * (n + varIntSize n + 40)

end Verif.Boost
