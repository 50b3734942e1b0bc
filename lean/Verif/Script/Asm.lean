import Verif.Script.Instr
import Verif.Text.Hex

/-
Scripts as text (`ASM`, src/gigamonkey/script/instruction.cpp 188-206, src/gigamonkey/script/opcodes.cpp).
-/

namespace Verif.Script

open Verif Verif.Text

/-- The names of the op codes from `OP_NOP`, 0x61, to `OP_NOP10`, 0xb9: `GetOpName`, opcodes.cpp 123-312 with the numbers of
opcodes.h 130-255. -/
def opNames : List String :=
  ["OP_NOP", "OP_VER", "OP_IF", "OP_NOTIF", "OP_VERIF", "OP_VERNOTIF", "OP_ELSE", "OP_ENDIF", "OP_VERIFY", "OP_RETURN",
   "OP_TOALTSTACK", "OP_FROMALTSTACK", "OP_2DROP", "OP_2DUP", "OP_3DUP", "OP_2OVER", "OP_2ROT", "OP_2SWAP", "OP_IFDUP",
   "OP_DEPTH", "OP_DROP", "OP_DUP", "OP_NIP", "OP_OVER", "OP_PICK", "OP_ROLL", "OP_ROT", "OP_SWAP", "OP_TUCK", "OP_CAT",
   "OP_SPLIT", "OP_NUM2BIN", "OP_BIN2NUM", "OP_SIZE", "OP_INVERT", "OP_AND", "OP_OR", "OP_XOR", "OP_EQUAL", "OP_EQUALVERIFY",
   "OP_RESERVED1", "OP_RESERVED2", "OP_1ADD", "OP_1SUB", "OP_2MUL", "OP_2DIV", "OP_NEGATE", "OP_ABS", "OP_NOT", "OP_0NOTEQUAL",
   "OP_ADD", "OP_SUB", "OP_MUL", "OP_DIV", "OP_MOD", "OP_LSHIFT", "OP_RSHIFT", "OP_BOOLAND", "OP_BOOLOR", "OP_NUMEQUAL",
   "OP_NUMEQUALVERIFY", "OP_NUMNOTEQUAL", "OP_LESSTHAN", "OP_GREATERTHAN", "OP_LESSTHANOREQUAL", "OP_GREATERTHANOREQUAL",
   "OP_MIN", "OP_MAX", "OP_WITHIN", "OP_RIPEMD160", "OP_SHA1", "OP_SHA256", "OP_HASH160", "OP_HASH256", "OP_CODESEPARATOR",
   "OP_CHECKSIG", "OP_CHECKSIGVERIFY", "OP_CHECKMULTISIG", "OP_CHECKMULTISIGVERIFY", "OP_NOP1", "OP_CHECKLOCKTIMEVERIFY",
   "OP_CHECKSEQUENCEVERIFY", "OP_NOP4", "OP_NOP5", "OP_NOP6", "OP_NOP7", "OP_NOP8", "OP_NOP9", "OP_NOP10"]

/-- `operator << (std::ostream &, op)`, opcodes.cpp 10-72, and `GetOpName`, 74-326.  The op codes of pushes by size, which are written
as their number, and the other pushes with data do not come here from `write_asm`; they are given for completeness. -/
def opName (o : Op) : List Char :=
  if o = 0 then "OP_0".toList
  else if o ≤ 0x4b then (Nat.repr o.toNat).toList
  else if o = 0x4c then "OP_PUSHDATA1".toList
  else if o = 0x4d then "OP_PUSHDATA2".toList
  else if o = 0x4e then "OP_PUSHDATA4".toList
  else if o = 0x4f then "-1".toList
  else if o = 0x50 then "OP_RESERVED".toList
  else if o ≤ 0x60 then "OP_".toList ++ (Nat.repr (o.toNat - 0x50)).toList
  else if o ≤ 0xb9 then ((opNames[o.toNat - 0x61]?).getD "").toList
  else if o = 0xff then "OP_INVALIDOPCODE".toList
  else "OP_UNKNOWN".toList

/-- `write_asm`, instruction.cpp 188-192. -/
def Instr.asm (i : Instr) : List Char :=
  if i.op = 0 then ['0'] else if isPushData i.op then hexWrite i.data else opName i.op

/-- The loop of `ASM`, instruction.cpp 198-202. -/
def joinWords : List (List Char) → List Char
  | [] => []
  | w :: ws => w ++ ws.flatMap fun v => ' ' :: v

/-- `ASM`, instruction.cpp 194-206; what `decompile` throws leaves it. -/
def asm (b : Bytes) : Except DErr (List Char) := (decompile b).map fun p => joinWords (p.map Instr.asm)

-- pay to address
example : (asm [0x76, 0xa9, 0x02, 0xab, 0xcd, 0x88, 0xac]).toOption = some "OP_DUP OP_HASH160 abcd OP_EQUALVERIFY OP_CHECKSIG".toList := by
  decide +kernel

end Verif.Script
