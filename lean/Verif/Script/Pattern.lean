import Verif.Script.Instr
import Verif.Script.Num

/-
Model of script patterns: script/pattern.cpp and
include/gigamonkey/script/pattern.hpp, and of the standard patterns in
include/gigamonkey/script/pattern/.
-/

namespace Verif.Script

open Verif

/-- `next_instruction_size`, pattern.cpp 11-33, for a script that is not empty
(every caller has tested that; here `0`).  The result is a `uint32`; only the
sum on line 32 can wrap. -/
def nextInstructionSize (s : Bytes) : Nat :=
  match s with
  | [] => 0
  | o :: t =>
    if o = 0xff then 0
    else if !isPushData o then 1
    else if o ≤ 0x4b then o.toNat + 1
    else if o = 0x4c then if s.length < 2 then 0 else leNat (t.take 1) + 2
    else if o = 0x4d then if s.length < 3 then 0 else leNat (t.take 2) + 3
    else if s.length < 5 then 0
    else (leNat (t.take 4) + 5) % 2 ^ 32

/-- `push::type` with the field it uses, pattern.hpp 90-104.  A `bytes &` is
represented by a number standing for the variable referred to. -/
inductive PushKind
  | any
  | value (v : Int)
  | data (b : Bytes)
  | read (slot : Nat)
  deriving DecidableEq, Repr

/-- `repeated_directive`, pattern.hpp 131-133. -/
inductive Directive
  | exactly
  | orMore
  | orLess
  deriving DecidableEq, Repr

/-- A pattern object: the classes of pattern.hpp 63-223.  `null` is a `pattern`
whose pointer is null; a `pattern` with another pointer behaves as what it
points to and is represented by that.  A `sequence` of several patterns is
nested `seq`s ended by `null`, and `alternatives` are nested `alt`s ended by
`never` (`Pat.sequence`, `Pat.alternatives`). -/
inductive Pat
  | null
  | any
  | atom (i : Instr)
  | str (b : Bytes)
  | push (k : PushKind)
  | pushSize (n : Nat) (slot : Option Nat)
  | seq (a b : Pat)
  | never
  | alt (a b : Pat)
  | opt (a : Pat)
  | rep (first : BitVec 32) (second : Option (BitVec 32)) (d : Directive) (a : Pat)
  | opReturn (a : Pat)
  deriving Repr

/-- What `sequence::construct` keeps of a pattern, pattern.hpp 263-293.  There
is no overload for `any`, `repeated` or `op_return_data`: these are passed to
`construct (pattern p)` by value, which copies only the base class, and with it
only the pointer. -/
def Pat.construct : Pat → Pat
  | .any => .null
  | .rep _ _ _ a => a
  | .opReturn a => a
  | p => p

/-- `pattern (X, P...)` and `sequence (P...)`, pattern.hpp 181-182, 230-231,
295-303. -/
def Pat.sequence (l : List Pat) : Pat := l.foldr (fun a b => .seq a.construct b) .null

/-- `alternatives (P...)`, pattern.hpp 204-208. -/
def Pat.alternatives (l : List Pat) : Pat := l.foldr (fun a b => .alt a.construct b) .never

/-- Assignments to captured variables, in order. -/
abbrev Log := List (Nat × Bytes)

/-- How a scan ends: with the rest of the script; by throwing `fail`, which
`match`, `optional`, `repeated` and `alternatives` catch; by throwing something
else, which nothing catches; or not yet, with the rounds allowed here. -/
inductive Scan
  | ok (rest : Bytes)
  | fail
  | thrown
  | running
  deriving DecidableEq, Repr

/-- `Instruction::read (p.range (0, size))` in pattern.cpp 64 and 74, where
`size` is `next_instruction_size (p)`.  When the script ends before the
instruction does, what `range` does is up to the data library; whether it
throws, returns an empty slice or a shorter one, an exception other than `fail`
is thrown, there or by `instruction::read`.  Sizes are below `2^31`, which
`range` takes as a signed number. -/
def readNext (p : Bytes) : Option Instr :=
  if p.length < nextInstructionSize p then none
  else
    match Instr.read (p.take (nextInstructionSize p)) with
    | .ok i => some i
    | .error _ => none

/-- `push::match`, pattern.cpp 87-102. -/
def PushKind.accepts (k : PushKind) (i : Instr) : Bool :=
  match k with
  | .any => isPush i.op
  | .value v => isPush i.op && v == numVal i.pushData
  | .data b => isPush i.op && b == i.pushData
  | .read _ => isPush i.op

/-- What `push::match` assigns. -/
def PushKind.log (k : PushKind) (i : Instr) : Log :=
  match k with
  | .read s => [(s, i.pushData)]
  | _ => []

/-- The loop of `repeated::scan`, pattern.cpp 134-143, for a body scanned by
`s`.  `count` is a `uint32`. -/
def repLoop (s : Bytes → Log × Scan) (min : Nat) (max : Int) : Nat → Nat → Bytes → Log × Scan
  | 0, _, _ => ([], .running)
  | fuel + 1, count, p =>
    match s p with
    | (l, .ok q) =>
      let count' : Nat := (count + 1) % 2 ^ 32
      if Int.ofNat count' = max then (l, .ok q)
      else
        let r := repLoop s min max fuel count' q
        (l ++ r.1, r.2)
    | (l, .fail) => (l, if count < min then .fail else .ok p)
    | (l, r) => (l, r)

/-- `min` of `repeated::scan`, pattern.cpp 130.  `Second` is an `int`; `-1`
stands for its absence, so a second bound of `2^32 - 1` is taken as none. -/
def repMin (first : BitVec 32) (second : Option (BitVec 32)) (d : Directive) : Nat :=
  if (second = none ∨ second = some (BitVec.ofNat 32 (2 ^ 32 - 1))) ∧ d = .orLess then 0 else first.toNat

/-- `max` of `repeated::scan`, pattern.cpp 131. -/
def repMax (first : BitVec 32) (second : Option (BitVec 32)) (d : Directive) : Int :=
  match second with
  | some n => if n = BitVec.ofNat 32 (2 ^ 32 - 1) then (if d = .orMore then -1 else first.toNat) else n.toInt
  | none => if d = .orMore then -1 else first.toNat

/-- `scan` of every kind of pattern, pattern.cpp 35-158 and pattern.hpp 44-47.
Each loop of a `repeated` is allowed `fuel` rounds. -/
def Pat.scan (fuel : Nat) : Pat → Bytes → Log × Scan
  | .null, p => ([], .ok p)
  | .any, p =>
    if p.length = 0 then ([], .fail)
    else if p.length < nextInstructionSize p then ([], .fail)
    else ([], .ok (p.drop (nextInstructionSize p)))
  | .atom i, p =>
    if p.head? ≠ some i.op then ([], .fail)
    else if p.length < nextInstructionSize p then ([], .fail)
    else
      match Instr.read (p.take (nextInstructionSize p)) with
      | .error _ => ([], .thrown)
      | .ok j => if i ≠ j then ([], .fail) else ([], .ok (p.drop (nextInstructionSize p)))
  | .str b, p => if b <+: p then ([], .ok (p.drop b.length)) else ([], .fail)
  | .push k, p =>
    if p.length = 0 then ([], .fail)
    else if nextInstructionSize p = 0 then ([], .fail)
    else
      match readNext p with
      | none => ([], .thrown)
      | some i => if k.accepts i then (k.log i, .ok (p.drop (nextInstructionSize p))) else ([], .fail)
  | .pushSize n slot, p =>
    if p.length = 0 then ([], .fail)
    else
      match readNext p with
      | none => ([], .thrown)
      | some i =>
        if i.pushData.length = n then
          (slot.toList.map (·, i.pushData), .ok (p.drop (nextInstructionSize p)))
        else ([], .fail)
  | .seq a b, p =>
    match a.scan fuel p with
    | (l, .ok q) => let r := b.scan fuel q; (l ++ r.1, r.2)
    | (l, r) => (l, r)
  | .never, _ => ([], .fail)
  | .alt a b, p =>
    match a.scan fuel p with
    | (l, .fail) => let r := b.scan fuel p; (l ++ r.1, r.2)
    | (l, r) => (l, r)
  | .opt a, p =>
    match a.scan fuel p with
    | (l, .fail) => (l, .ok p)
    | (l, r) => (l, r)
  | .rep first second d a, p => repLoop (a.scan fuel) (repMin first second d) (repMax first second d) fuel 0 p
  | .opReturn a, p =>
    if p.head? ≠ some 0x6a then ([], .fail) else a.scan fuel (p.drop 1)

/-- How `pattern::match` ends. -/
inductive Answer
  | yes
  | no
  | thrown
  | running
  deriving DecidableEq, Repr

/-- `pattern::match`, pattern.hpp 21-28. -/
def Pat.matches (fuel : Nat) (a : Pat) (p : Bytes) : Log × Answer :=
  match a.scan fuel p with
  | (l, .ok rest) => (l, if rest.length = 0 then .yes else .no)
  | (l, .fail) => (l, .no)
  | (l, .thrown) => (l, .thrown)
  | (l, .running) => (l, .running)

/-- The value of a variable after the assignments, which was `v` before. -/
def Log.value (l : Log) (slot : Nat) (v : Bytes) : Bytes :=
  ((l.reverse.find? (·.1 = slot)).map (·.2)).getD v

/-! ### Standard patterns.  The captured variable has number 0. -/

/-- An instruction that is a bare opcode: `pattern::sequence::construct (op)`. -/
def Pat.op (o : Op) : Pat := .atom ⟨o, []⟩

/-- `pay_to_address::pattern`, include/gigamonkey/script/pattern/pay_to_address.hpp 12-15. -/
def addressPattern : Pat :=
  .sequence [.op 0x76, .op 0xa9, .pushSize 20 (some 0), .op 0x88, .op 0xac]

/-- `pubkey_pattern`, pattern.hpp 226-228. -/
def pubkeyPattern : Pat :=
  .sequence [.alternatives [.pushSize 33 (some 0), .pushSize 65 (some 0)]]

/-- `pay_to_pubkey::pattern`, include/gigamonkey/script/pattern/pay_to_pubkey.hpp 12-14. -/
def payPubkeyPattern : Pat := .sequence [pubkeyPattern, .op 0xac]

/-- `pay_to_script_hash::pattern`, include/gigamonkey/script/pattern/pay_to_script_hash.hpp 13-16. -/
def scriptHashPattern : Pat := .sequence [.op 0xa9, .pushSize 20 (some 0), .op 0x87]

/-- What a constructor from a script gives: the captured value, the default
value if the pattern does not match, or an exception. -/
inductive Recognised
  | found (d : Bytes)
  | notFound
  | thrown
  deriving DecidableEq, Repr

/-- `pay_to_address (slice)`, `pay_to_pubkey (slice)` and
`pay_to_script_hash (slice)`, pay_to_address.hpp 32-37, pay_to_pubkey.hpp 31-36,
pay_to_script_hash.hpp 33-38.  The patterns have no `repeated` in them, so no
rounds are needed. -/
def recognise (a : Pat) (script : Bytes) : Recognised :=
  match a.matches 0 script with
  | (l, .yes) => .found (l.value 0 [])
  | (_, .no) => .notFound
  | _ => .thrown

/-- `pay_to_script_hash::script`, pay_to_script_hash.hpp 18-21. -/
def payToScriptHash (h : Bytes) : Program := [⟨0xa9, []⟩, Instr.push h, ⟨0x87, []⟩]

end Verif.Script
