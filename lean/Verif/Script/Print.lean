import Verif.Script.Asm

/-
What is printed of instructions (src/gigamonkey/script/instruction.cpp 207-300) and of script errors
(src/gigamonkey/script/error.cpp).
-/

namespace Verif.Script

open Verif Verif.Text

/-- The second `switch` of `write_op_code`, instruction.cpp 234-293. -/
def printNamed (o : Op) : List Char :=
  (match o.toNat with
  | 0xac => "checksig"
  | 0xad => "checksig_verify"
  | 0x88 => "equal_verify"
  | 0xaa => "hash256"
  | 0x50 => "reserved"
  | 0x61 => "nop"
  | 0x62 => "ver"
  | 0x63 => "if"
  | 0x64 => "not_if"
  | 0x65 => "ver_if"
  | 0x66 => "ver_not_if"
  | 0x67 => "else"
  | 0x68 => "end_if"
  | 0x69 => "verify"
  | 0x6a => "return"
  | 0x6b => "to_alt_stack"
  | 0x6c => "from_alt_stack"
  | 0x6d => "2_drop"
  | 0x6e => "2_dup"
  | 0x6f => "3_dup"
  | 0x70 => "2_over"
  | 0x71 => "2_rot"
  | 0x72 => "2_swap"
  | 0x73 => "if_dup"
  | 0x74 => "depth"
  | 0x75 => "drop"
  | 0x76 => "dup"
  | 0x77 => "nip"
  | 0x78 => "over"
  | 0x79 => "pick"
  | 0x7a => "roll"
  | 0x7b => "rot"
  | 0x7c => "swap"
  | 0x7d => "tuck"
  | 0x82 => "size"
  | 0x7e => "cat"
  | 0x7f => "split"
  | 0x9f => "less"
  | 0xa0 => "greater"
  | 0xa1 => "less_equal"
  | 0xa2 => "greater_equal"
  | 0xa5 => "within"
  | 0x94 => "subtract"
  | 0x93 => "add"
  | 0x95 => "mul"
  | 0x99 => "rshift"
  | 0x98 => "lshift"
  | _ => String.ofList (opName o)).toList

/-- `write_op_code`, instruction.cpp 207-295. -/
def printOp (o : Op) : List Char :=
  if o = 0 then "push_empty".toList
  else if isPush o then
    if o = 0x4c then "push_data_1".toList
    else if o = 0x4d then "push_data_2".toList
    else if o = 0x4e then "push_data_4".toList
    else if o = 0x4f then "(-1)".toList
    else if o ≥ 0x51 then '(' :: ((Nat.repr (o.toNat - 0x50)).toList ++ [')'])
    else "push_size_".toList ++ (Nat.repr o.toNat).toList
  else printNamed o

/-- `operator << (std::ostream &, const instruction &)`, instruction.cpp 297-300. -/
def Instr.print (i : Instr) : List Char :=
  if !isPushData i.op then printOp i.op
  else printOp i.op ++ '{' :: (hexWrite i.data ++ ['}'])

/-- `ScriptErrorString`, error.cpp 10-109. -/
def ScriptError.text : ScriptError → String
  | .ok => "No error"
  | .evalFalse => "Script evaluated without error but finished with a false/empty top stack element"
  | .verify => "Script failed an OP_VERIFY operation"
  | .equalVerify => "Script failed an OP_EQUALVERIFY operation"
  | .checkMultisigVerify => "Script failed an OP_CHECKMULTISIGVERIFY operation"
  | .checksigVerify => "Script failed an OP_CHECKSIGVERIFY operation"
  | .numEqualVerify => "Script failed an OP_NUMEQUALVERIFY operation"
  | .scriptSize => "Script is too big"
  | .pushSize => "Push value size limit exceeded"
  | .opCount => "Operation limit exceeded"
  | .stackSize => "Stack size limit exceeded"
  | .sigCount => "Signature count negative or greater than pubkey count"
  | .pubkeyCount => "Pubkey count negative or limit exceeded"
  | .invalidOperandSize => "Invalid operand size"
  | .invalidNumberRange => "Given operand is not a number within the valid range [-2^31...2^31]"
  | .impossibleEncoding => "The requested encoding is impossible to satisfy"
  | .invalidSplitRange => "Invalid OP_SPLIT range"
  | .scriptnumOverflow => "Script number overflow"
  | .scriptnumMinencode => "Non-minimally encoded script number"
  | .badOpcode => "Opcode missing or not understood"
  | .disabledOpcode => "Attempted to use a disabled opcode"
  | .invalidStackOperation => "Operation not valid with the current stack size"
  | .invalidAltstackOperation => "Operation not valid with the current altstack size"
  | .opReturn => "OP_RETURN was encountered"
  | .unbalancedConditional => "Invalid OP_IF construction"
  | .divByZero => "Division by zero error"
  | .modByZero => "Modulo by zero error"
  | .negativeLocktime => "Negative locktime"
  | .unsatisfiedLocktime => "Locktime requirement not satisfied"
  | .sigHashtype => "Signature hash type missing or not understood"
  | .sigDer => "Non-canonical DER signature"
  | .minimalData => "Data push larger than necessary"
  | .sigPushonly => "Only non-push operators allowed in signatures"
  | .sigHighS => "Non-canonical signature: S value is unnecessarily high"
  | .sigNulldummy => "Dummy CHECKMULTISIG argument must be zero"
  | .minimalIf => "OP_IF/NOTIF argument must be minimal"
  | .sigNullfail => "Signature must be zero for failed CHECK(MULTI)SIG operation"
  | .discourageUpgradableNops => "NOPx reserved for soft-fork upgrades"
  | .pubkeyType => "Public key is neither compressed or uncompressed"
  | .cleanStack => "Script did not clean its stack"
  | .noncompressedPubkey => "Using non-compressed public key"
  | .illegalForkid => "Illegal use of SIGHASH_FORKID"
  | .mustUseForkid => "Signature must use SIGHASH_FORKID"
  | .bigInt => "Big integer OpenSSL error"
  | .unknownError => "unknown error"
  | .invalidScriptCode => "unknown error"

end Verif.Script
