import Verif.Script.Pattern
import Verif.Work.Model

/-
Boost: proof of work as a payment, src/gigamonkey/boost/boost.cpp and
include/gigamonkey/boost/boost.hpp.  Candidates (sets of outputs with the same script) and the making
of a redeeming transaction are in Verif.Boost.Redeem; difficulties are not modelled.
-/

namespace Verif.Boost

open Verif Script Work

/-- `enum type`, boost.hpp 15. -/
inductive Kind
  | invalid
  | bounty
  | contract
  deriving DecidableEq, Repr

/-- `struct output_script`, boost.hpp 35-63. -/
structure Output where
  kind : Kind
  hash : BitVec 160
  category : BitVec 32
  useBits : Bool
  content : BitVec 256
  target : Compact
  tag : Bytes
  userNonce : BitVec 32
  data : Bytes
  deriving DecidableEq, Repr

/-- `output_script ()`, boost.hpp 403-406. -/
def Output.empty : Output := ⟨.invalid, 0, 0, false, 0, 0, [], 0, []⟩

/-- `output_script::bounty`, boost.hpp 421-431 and 498-512. -/
def Output.bounty (category : BitVec 32) (content : BitVec 256) (target : Compact) (tag : Bytes)
    (userNonce : BitVec 32) (data : Bytes) (useBits : Bool) : Output :=
  if tag.length > 20 then .empty else ⟨.bounty, 0, category, useBits, content, target, tag, userNonce, data⟩

/-- `output_script::contract`, boost.hpp 433-445 and 514-530. -/
def Output.contract (category : BitVec 32) (content : BitVec 256) (target : Compact) (tag : Bytes)
    (userNonce : BitVec 32) (data : Bytes) (hash : BitVec 160) (useBits : Bool) : Output :=
  ⟨.contract, hash, category, useBits, content, target, tag, userNonce, data⟩

/-- `output_script::valid`, boost.hpp 447-449. -/
def Output.valid (o : Output) : Bool := o.kind != .invalid

/-- `struct input_script`, boost.hpp 145-155.  A session id is kept as a big-endian
number in memory. -/
structure Input where
  kind : Kind
  signature : Bytes
  pubkey : Bytes
  nonce : BitVec 32
  timestamp : BitVec 32
  extraNonce2 : Bytes
  extraNonce1 : BitVec 32
  bits : Option (BitVec 32)
  hash : BitVec 160
  deriving DecidableEq, Repr

/-- `input_script x {}`, boost.hpp 199. -/
def Input.empty : Input := ⟨.invalid, [], [], 0, 0, [], 0, none, 0⟩

/-- `input_script::bounty`, boost.hpp 620-642, 532-547 and 565-581. -/
def Input.bounty (signature pubkey : Bytes) (nonce timestamp : BitVec 32) (extraNonce2 : Bytes)
    (extraNonce1 : BitVec 32) (bits : Option (BitVec 32)) (hash : BitVec 160) : Input :=
  ⟨.bounty, signature, pubkey, nonce, timestamp, extraNonce2, extraNonce1, bits, hash⟩

/-- `input_script::contract`, boost.hpp 644-664, 549-563 and 583-598. -/
def Input.contract (signature pubkey : Bytes) (nonce timestamp : BitVec 32) (extraNonce2 : Bytes)
    (extraNonce1 : BitVec 32) (bits : Option (BitVec 32)) : Input :=
  ⟨.contract, signature, pubkey, nonce, timestamp, extraNonce2, extraNonce1, bits, 0⟩

/-- `input_script::valid`, boost.hpp 600-603. -/
def Input.valid (i : Input) : Bool :=
  i.kind != .invalid && (i.extraNonce2.length == 8 || i.bits.isSome && i.extraNonce2.length ≤ 32)

/-! ### Writing -/

/-- A bare opcode in a program. -/
def op (o : Op) : Instr := ⟨o, []⟩

/-- `push_data (int)`, instruction.hpp 188-190. -/
def pushInt (z : Int) : Instr := Instr.push (numEnc z)

/-- `expand_target`, boost.cpp 10-16. -/
def expandTarget : Program :=
  [op 0x82, pushInt 4, op 0x88, pushInt 3, op 0x7f,
   op 0x76, op 0x81, pushInt 3, pushInt 33, op 0xa5, op 0x69, op 0x6b,
   op 0x76, op 0x81, op 0x00, op 0xa0, op 0x69,
   Instr.push (List.replicate 29 0),
   op 0x7e, op 0x6c, pushInt 3, op 0x94, pushInt 8, op 0x95, op 0x99]

/-- `ensure_positive`, boost.cpp 25. -/
def ensurePositive : Program := [Instr.push [0x00], op 0x7e, op 0x81]

/-- The characters "boostpow", boost.cpp 97, 130 and 221. -/
def boostpow : Bytes := [0x62, 0x6F, 0x6F, 0x73, 0x74, 0x70, 0x6F, 0x77]

/-- The operations with general purpose bits, boost.cpp 233-261. -/
def opsBits : Program :=
  [op 0x7e, op 0x7c,
   op 0x55, op 0x7a, op 0x76, op 0x6b, op 0x7e,
   op 0x52, op 0x79, op 0x6b,
   op 0x56, op 0x7a, op 0x82, op 0x54, op 0x88, op 0x7e,
   op 0x56, op 0x7a, op 0x82, pushInt 32, op 0xa1, op 0x69, op 0x7e,
   op 0x7c, op 0x7e, op 0xaa,
   op 0x7c, op 0x6b, op 0x7e, op 0x6b,
   Instr.push (wfix 4 boostMask), op 0x76, op 0x83, op 0x6b, op 0x84,
   op 0x7c, op 0x6c, op 0x84, op 0x85,
   op 0x6c, op 0x7e,
   op 0x7c, op 0x82, op 0x54, op 0x88, op 0x7e,
   op 0x6c, op 0x7e,
   op 0x7c, op 0x82, op 0x54, op 0x88, op 0x7e,
   op 0xaa] ++ ensurePositive ++
  [op 0x6c] ++ expandTarget ++ ensurePositive ++
  [op 0x9f, op 0x69,
   op 0x76, op 0xa9, op 0x6c, op 0x88, op 0xac]

/-- The operations without general purpose bits, boost.cpp 268-289. -/
def opsPlain : Program :=
  [op 0x7e, op 0x7c,
   op 0x55, op 0x7a, op 0x76, op 0x6b, op 0x7e,
   op 0x52, op 0x79, op 0x6b,
   op 0x55, op 0x7a, op 0x82, op 0x54, op 0x88, op 0x7e,
   op 0x55, op 0x7a, op 0x82, op 0x58, op 0x88, op 0x7e,
   op 0x7c, op 0x7e, op 0xaa,
   op 0x7c, op 0x6b, op 0x7e, op 0x7e,
   op 0x7c, op 0x82, op 0x54, op 0x88, op 0x7e,
   op 0x6c, op 0x7e,
   op 0x7c, op 0x82, op 0x54, op 0x88, op 0x7e,
   op 0xaa] ++ ensurePositive ++
  [op 0x6c] ++ expandTarget ++ ensurePositive ++
  [op 0x9f, op 0x69,
   op 0x76, op 0xa9, op 0x6c, op 0x88, op 0xac]

/-- The program of `output_script::write`, boost.cpp 219-289. -/
def Output.program (o : Output) : Program :=
  if o.kind = .invalid then []
  else
    [Instr.push boostpow, op 0x75] ++
    (if o.kind = .contract then [Instr.push (wfix 20 o.hash)] else []) ++
    [Instr.push (wfix 4 o.category), Instr.push (wfix 32 o.content), Instr.push (wfix 4 o.target),
     Instr.push o.tag, Instr.push (wfix 4 o.userNonce), Instr.push o.data] ++
    (if o.useBits then opsBits else opsPlain)

/-- `output_script::write`, boost.cpp 219-292. -/
def Output.write (o : Output) : Except RErr Bytes := compile o.program

/-- `input_script::program`, boost.cpp 205-217. -/
def Input.program (i : Input) : Program :=
  if i.kind = .invalid then []
  else
    [Instr.push i.signature, Instr.push i.pubkey, Instr.push (wfix 4 i.nonce), Instr.push (wfix 4 i.timestamp),
     Instr.push i.extraNonce2, Instr.push (wfix 4 i.extraNonce1).reverse] ++
    (match i.bits with | some b => [Instr.push (wfix 4 b)] | none => []) ++
    (if i.kind = .bounty then [Instr.push (wfix 20 i.hash)] else [])

/-- `input_script::write`, boost.hpp 605-607. -/
def Input.write (i : Input) : Except RErr Bytes := compile i.program

/-- `output_script::serialized_size`, boost.hpp 453-460. -/
def Output.serializedSize (o : Output) : Nat :=
  if o.kind = .invalid then 0
  else
    minPushSize o.tag + minPushSize o.data + (if o.kind = .contract then 21 else 0) + 112 +
      (if o.useBits then 76 else 59)

/-- `input_script::serialized_size`, boost.hpp 609-617. -/
def Input.serializedSize (i : Input) : Nat :=
  if i.kind = .invalid then 0
  else
    minPushSize i.signature + minPushSize i.pubkey + minPushSize i.extraNonce2 +
      (if i.kind = .bounty then 21 else 0) + (if i.bits.isSome then 5 else 0) + 15

/-- `input_script::expected_size`, boost.hpp 696-702, with `signature::MaxSize` of
signature.hpp 16 and secp256k1.hpp 40. -/
def expectedSize (k : Kind) (useBits compressed : Bool) : Nat :=
  if k = .invalid then 0
  else 73 + (if compressed then 34 else 66) + (if k = .bounty then 21 else 0) + (if useBits then 5 else 0) + 24

/-! ### Reading -/

/-- The number in a little-endian byte string. -/
def fromLE (w : Nat) (b : Bytes) : BitVec w := BitVec.ofNat w (leNat b)

/-- A program in a pattern is matched as the byte string it compiles to, pattern.hpp
271-273. -/
def Pat.prog (p : Program) : Pat := .str (p.flatMap Instr.write)

/-- The first parts of the two patterns, boost.cpp 97-108 and 130-141.  The variables are
0 MinerPubkeyHash, 1 Category, 2 Content, 3 Target, 4 Tag, 5 UserNonce, 6 AdditionalData. -/
def patHead : List Pat :=
  [.push (.data boostpow), .op 0x75,
   .opt (.pushSize 20 (some 0)),
   .pushSize 4 (some 1), .pushSize 32 (some 2), .pushSize 4 (some 3),
   .push (.read 4), .pushSize 4 (some 5), .push (.read 6), .op 0x7e, .op 0x7c,
   .push (.value 5), .op 0x7a, .op 0x76, .op 0x6b, .op 0x7e,
   .push (.value 2), .op 0x79, .op 0x6b]

/-- The last parts of the two patterns, boost.cpp 116-127 and 154-165. -/
def patTail : List Pat :=
  [.op 0x7c, .op 0x82, .push (.value 4), .op 0x88, .op 0x7e,
   .op 0x6c, .op 0x7e,
   .op 0x7c, .op 0x82, .push (.value 4), .op 0x88, .op 0x7e,
   .op 0xaa, Pat.prog ensurePositive,
   .op 0x6c, Pat.prog expandTarget, Pat.prog ensurePositive,
   .op 0x9f, .op 0x69,
   .op 0x76, .op 0xa9, .op 0x6c, .op 0x88, .op 0xac]

/-- `output_script_pattern`, boost.cpp 129-165. -/
def patBits : Pat :=
  .sequence (patHead ++
   [.push (.value 6), .op 0x7a, .op 0x82, .push (.value 4), .op 0x88, .op 0x7e,
    .push (.value 6), .op 0x7a, .op 0x82, .push (.value 32), .op 0xa1, .op 0x69, .op 0x7e,
    .op 0x7c, .op 0x7e, .op 0xaa,
    .op 0x7c, .op 0x6b, .op 0x7e, .op 0x6b,
    .atom (Instr.push (wfix 4 boostMask)), .op 0x76, .op 0x83, .op 0x6b, .op 0x84,
    .op 0x7c, .op 0x6c, .op 0x84, .op 0x85,
    .op 0x6c, .op 0x7e] ++ patTail)

/-- `output_script_pattern_no_asicboost`, boost.cpp 96-127. -/
def patPlain : Pat :=
  .sequence (patHead ++
   [.push (.value 5), .op 0x7a, .op 0x82, .push (.value 4), .op 0x88, .op 0x7e,
    .push (.value 5), .op 0x7a, .op 0x82, .push (.value 8), .op 0x88, .op 0x7e,
    .op 0x7c, .op 0x7e, .op 0xaa,
    .op 0x7c, .op 0x6b, .op 0x7e, .op 0x7e] ++ patTail)

/-- What `read` makes of the variables, boost.cpp 173-202. -/
def Output.ofLog (l : Log) (useBits : Bool) : Output :=
  if (l.value 4 []).length > 20 then .empty
  else
    let h := l.value 0 []
    { kind := if h.length = 0 then .bounty else .contract
      hash := if h.length = 0 then 0 else fromLE 160 h
      category := fromLE 32 (l.value 1 [])
      useBits := useBits
      content := fromLE 256 (l.value 2 [])
      target := fromLE 32 (l.value 3 [])
      tag := l.value 4 []
      userNonce := fromLE 32 (l.value 5 [])
      data := l.value 6 [] }

/-- `output_script::read`, boost.cpp 88-203; `none` if a pattern throws.  Both patterns
assign to the same variables.  They have no `repeated` in them, so no rounds are
needed. -/
def Output.read (b : Bytes) : Option Output :=
  match patBits.matches 0 b with
  | (l, .yes) => some (.ofLog l true)
  | (l, .no) =>
    match patPlain.matches 0 b with
    | (l', .yes) => some (.ofLog (l ++ l') false)
    | (_, .no) => some .empty
    | _ => none
  | _ => none

/-- A pattern that assigns to another variable. -/
def pubkeyPatternTo (slot : Nat) : Pat :=
  .sequence [.alternatives [.pushSize 33 (some slot), .pushSize 65 (some slot)]]

/-- The pattern of `input_script::read`, boost.cpp 41-49.  The variables are 0 Signature,
1 MinerPubkey, 2 Nonce, 3 Timestamp, 4 ExtraNonce2, 5 ExtraNonce1, 6 GeneralPurposeBits,
7 MinerPubkeyHash. -/
def patInput : Pat :=
  .sequence
    [.push (.read 0), pubkeyPatternTo 1, .pushSize 4 (some 2), .pushSize 4 (some 3), .push (.read 4),
     .pushSize 4 (some 5), .opt (.pushSize 4 (some 6)), .opt (.pushSize 20 (some 7))]

/-- What `read` makes of the variables, boost.cpp 51-85. -/
def Input.ofLog (l : Log) : Input :=
  let g := l.value 6 []
  let h := l.value 7 []
  if g.length ≠ 0 ∧ (l.value 4 []).length > 32 ∨ g.length = 0 ∧ (l.value 4 []).length ≠ 8 then .empty
  else
    { kind := if h.length = 0 then .contract else .bounty
      signature := l.value 0 []
      pubkey := l.value 1 []
      nonce := fromLE 32 (l.value 2 [])
      timestamp := fromLE 32 (l.value 3 [])
      extraNonce2 := l.value 4 []
      extraNonce1 := fromLE 32 (l.value 5 []).reverse
      bits := if g.length = 0 then none else some (fromLE 32 g)
      hash := if h.length = 0 then 0 else fromLE 160 h }

/-- `input_script::read`, boost.cpp 32-86; `none` if the pattern throws. -/
def Input.read (b : Bytes) : Option Input :=
  match patInput.matches 0 b with
  | (l, .yes) => some (.ofLog l)
  | (_, .no) => some .empty
  | _ => none

/-! ### Puzzles and proofs -/

/-- `puzzle::header`, boost.hpp 772-774. -/
def header (tag : Bytes) (hash : BitVec 160) : Bytes := tag ++ wfix 20 hash

/-- `puzzle::body`, boost.hpp 776-778. -/
def body (userNonce : BitVec 32) (data : Bytes) : Bytes := wfix 4 userNonce ++ data

/-- `work::puzzle {}`, work/proof.hpp 222 and 36. -/
def emptyPuzzle : Puzzle := ⟨0, 0, 0, ⟨0, []⟩, [], [], -1⟩

/-- `work_puzzle`, boost.cpp 378-386.  A digest is valid if it is not zero. -/
def workPuzzle (o : Output) (address : BitVec 160) : Puzzle :=
  let h := if o.kind = .contract then o.hash else address
  if !o.valid || h == 0 then emptyPuzzle
  else ⟨o.category, o.content, o.target, ⟨0, []⟩, header o.tag h, body o.userNonce o.data,
    if o.useBits then boostMask else -1⟩

/-- `struct proof`, boost.hpp 278-297. -/
structure BProof where
  work : Proof
  kind : Kind
  signature : Bytes
  pubkey : Bytes
  deriving DecidableEq, Repr

/-- `proof ()`, boost.hpp 712. -/
def BProof.empty : BProof := ⟨.empty, .invalid, [], []⟩

/-- `proof (output_script, input_script)`, boost.cpp 353-376. -/
def BProof.of (out : Output) (i : Input) : BProof :=
  if out.kind = .invalid ∨ i.kind ≠ out.kind then .empty
  else
    let h := if out.kind = .bounty then i.hash else out.hash
    let make (mask : BitVec 32) (bits : Option (BitVec 32)) : BProof :=
      ⟨⟨⟨out.category, out.content, out.target, ⟨0, []⟩, header out.tag h, body out.userNonce out.data, mask⟩,
        ⟨i.timestamp, i.nonce, i.extraNonce2, bits, i.extraNonce1⟩⟩, out.kind, i.signature, i.pubkey⟩
    match i.bits with
    | some b => if out.useBits then make boostMask (some b) else .empty
    | none => if out.useBits then .empty else make (-1) none

/-- `proof::valid`, boost.hpp 730-732. -/
def BProof.valid (H : Bytes → BitVec 256) (p : BProof) : Bool :=
  (p.work.puzzle.mask == -1 || p.work.puzzle.mask == boostMask) && p.work.valid H

/-- `from_solution`, boost.cpp 298-315, and the constructor of 317-321.  `share::valid` is
that the timestamp is not zero, work/proof.hpp 218-220.  `hash160` is `Hash160`. -/
def Input.ofSolution (hash160 : Bytes → BitVec 160) (signature pubkey : Bytes) (x : Solution) (t : Kind)
    (categoryMask : Bool) : Input :=
  if t = .invalid ∨ x.timestamp = 0 ∨ (categoryMask = false ∧ x.bits ≠ none) then .empty
  else
    let i := if t = .bounty then
        Input.bounty signature pubkey x.nonce x.timestamp x.extraNonce2 x.extraNonce1 none (hash160 pubkey)
      else Input.contract signature pubkey x.nonce x.timestamp x.extraNonce2 x.extraNonce1 none
    if categoryMask then { i with bits := some (x.bits.getD 0) } else i

/-- `proof::input_script`, boost.hpp 726-728. -/
def BProof.input (hash160 : Bytes → BitVec 160) (p : BProof) : Input :=
  .ofSolution hash160 p.signature p.pubkey p.work.solution p.kind (p.work.puzzle.mask != 0)

/-- `input_script::solution`, boost.hpp 708-710. -/
def Input.solution (i : Input) : Solution := ⟨i.timestamp, i.nonce, i.extraNonce2, none, i.extraNonce1⟩

end Verif.Boost
