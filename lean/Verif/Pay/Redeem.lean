import Verif.Pay.Extended
import Verif.Sig.Spend
import Verif.Script.Pattern
import Verif.Keys.Secp
import Verif.Text.Check

/-
Signing a transaction design: include/gigamonkey/redeem.hpp, redeem.cpp.
Paths in citations are relative to /repo/src/gigamonkey.
-/

namespace Verif.Pay

open Verif Verif.Script Verif.Sig Verif.Keys Verif.Text

/-- What is taken from libsecp256k1 by signing (external, trusted): the group and the forms of
its points, signing with a secret key and verifying with a point.  Signatures made with a
secret key verify with its point, are DER forms of numbers of at most 33 bytes and have a low
S. -/
structure Ecdsa (P : Type) [AddCommGroup P] where
  lib : Lib P
  /-- `secret::sign (slice, digest)`, secp256k1.cpp 280-292 -/
  sign : Bytes → BitVec 256 → Bytes
  verify : P → BitVec 256 → Bytes → Bool
  sign_verifies : ∀ sk h, secretOk sk = true → verify (Keys.beNat sk • lib.G) h (sign sk h) = true
  sign_der : ∀ sk h, secretOk sk = true → ∃ r s, r.length ≤ 33 ∧ s.length ≤ 33 ∧ Unpadded r ∧ Unpadded s ∧
    sign sk h = derBytes r s
  sign_low : ∀ sk h, secretOk sk = true → normalized (sign sk h) = true

variable {P : Type} [AddCommGroup P]

/-- `pubkey::valid (slice)` and `pubkey::verify`, secp256k1.cpp 217-220 and 303-309. -/
def Ecdsa.curve (E : Ecdsa P) : Curve where
  pubValid b := (E.lib.parse b).isSome
  verify b h s :=
    match E.lib.parse b with
    | none => false
    | some p => E.verify p h s

/-- `sigop`, include/gigamonkey/redeem.hpp 16-22. -/
structure Sigop where
  key : Secret
  directive : UInt8

/-- `redeemer`, include/gigamonkey/redeem.hpp 36-40. -/
structure Redeemer where
  input : DInput
  sigs : List Sigop

/-- `redeemable_transaction`, include/gigamonkey/redeem.hpp 43-57.  The code keeps the lists of
signature operations beside the inputs; they are made from one list and are kept in one here. -/
structure Redeemable where
  version : BitVec 32
  inputs : List Redeemer
  outputs : List Output
  lockTime : BitVec 32

/-- The base class, include/gigamonkey/redeem.hpp 51-55. -/
def Redeemable.design (t : Redeemable) : Design := ⟨t.version, t.inputs.map (·.input), t.outputs, t.lockTime⟩

/-- `transaction_design::operator incomplete::transaction`, include/gigamonkey/fees.hpp 134-138. -/
def Design.incomplete (d : Design) : ITx :=
  ⟨d.version, d.inputs.map fun i => ⟨i.reference, i.sequence⟩, d.outputs, d.lockTime⟩

/-- What can go wrong: a script that cannot be stepped through (undefined behaviour), the
exceptions of `decompile`, of matching a pattern, of `signature::hash` and of `compile`. -/
inductive RedeemErr
  | ub
  | decompile (e : DErr)
  | pattern
  | hash (e : SigErr)
  | compile
  deriving DecidableEq, Repr

/-- The loop of `remove_after_last_code_separator`, script.cpp 49.  Every round passes at least
one byte, so a number of rounds above the length of the script is never used up. -/
def lastLoop : Nat → Counter → Option Counter
  | 0, _ => none
  | n + 1, c =>
    if 0 < c.next.length then
      match c.step with
      | none => none
      | some c' => lastLoop n c'
    else some c

/-- `remove_after_last_code_separator`, script.cpp 47-51. -/
def removeAfterLast (b : Bytes) : Except RedeemErr Program :=
  match Counter.start b with
  | none => .error .ub
  | some c =>
    match lastLoop (b.length + 1) c with
    | none => .error .ub
    | some c => c.toLastCodeSeparator.mapError .decompile

/-- `pubkey::decompress`, secp256k1.cpp 255-261. -/
def Ecdsa.decompress (E : Ecdsa P) (pk : Bytes) : Bytes :=
  if pk.length = 65 then pk
  else
    match E.lib.parse pk with
    | none => []
    | some p => E.lib.enc false p

/-- `secret::to_public`, include/gigamonkey/wif.hpp 131-133; `compress`, secp256k1.cpp 247-253,
keeps keys of 33 bytes, and what fails is empty. -/
def Ecdsa.pubkeyOf (E : Ecdsa P) (s : Secret) : Bytes :=
  if s.compressed then toPublic E.lib true s.key else E.decompress (toPublic E.lib true s.key)

/-- `operator == (pubkey, pubkey)`, include/gigamonkey/secp256k1.hpp 251-255. -/
def Ecdsa.samePubkey (E : Ecdsa P) (a b : Bytes) : Bool :=
  if !(E.lib.parse a).isSome || !(E.lib.parse b).isSome || a.length == b.length then a == b
  else E.decompress a == E.decompress b

/-- `secret::sign`, include/gigamonkey/wif.hpp 143-145, and `signature::sign`,
include/gigamonkey/signature.hpp 43-45. -/
def Ecdsa.signDoc (E : Ecdsa P) (H : Bytes → BitVec 256) (s : Secret) (doc : SDoc) (d : UInt8) :
    Except RedeemErr Bytes :=
  match sigHash H doc d with
  | .error e => .error (.hash e)
  | .ok h => .ok (E.sign s.key h ++ [d])

/-- `compile` with its exception. -/
def compileR (p : Program) : Except RedeemErr Bytes :=
  match compile p with
  | .ok b => .ok b
  | .error _ => .error .compile

/-- `redeem_p2pkh_and_p2pk`, redeem.cpp 6-36. -/
def redeemStandard (E : Ecdsa P) (hash160 : Bytes → Bytes) (H : Bytes → BitVec 256) (out : Output) (doc : SDoc)
    (sigs : List Sigop) : Except RedeemErr Bytes :=
  match sigs with
  | [s] =>
    if !s.key.valid then .ok []
    else
      let p := E.pubkeyOf s.key
      match recognise addressPattern out.script with
      | .thrown => .error .pattern
      | a =>
        let address := match a with | .found h => h | _ => List.replicate 20 0
        if leNat address ≠ 0 then
          if address ≠ hash160 p then .ok []
          else do
            let sig ← E.signDoc H s.key doc s.directive
            compileR (redeemAddress sig p)
        else
          match recognise payPubkeyPattern out.script with
          | .thrown => .error .pattern
          | .notFound => .ok []
          | .found k =>
            if !(E.lib.parse k).isSome then .ok []
            else if !E.samePubkey k p then .ok []
            else do
              let sig ← E.signDoc H s.key doc s.directive
              compileR (redeemPubkey sig)
  | _ => .ok []

/-- The documents made in `redeemable_transaction::redeem`, redeem.cpp 39-46, from an index on. -/
def docsFrom (tx : ITx) : Nat → List Redeemer → Except RedeemErr (List SDoc)
  | _, [] => .ok []
  | k, r :: l => do
    let code ← removeAfterLast r.input.scriptSoFar
    let rest ← docsFrom tx (k + 1) l
    .ok (⟨tx, BitVec.ofNat 32 k, r.input.prevout.value, code⟩ :: rest)

/-- The loop over the inputs, redeem.cpp 52-58. -/
def scriptsOf (f : Output → SDoc → List Sigop → Except RedeemErr Bytes) :
    List Redeemer → List SDoc → Except RedeemErr (List Bytes)
  | r :: l, d :: ds => do
    let s ← f r.input.prevout d r.sigs
    let rest ← scriptsOf f l ds
    .ok (s :: rest)
  | _, _ => .ok []

/-- `redeemable_transaction::redeem`, redeem.cpp 38-61, with the default redeemer.  The last
exception, that of `complete`, is not reachable: there is one script for each input. -/
def Redeemable.redeem (E : Ecdsa P) (hash160 : Bytes → Bytes) (H : Bytes → BitVec 256) (t : Redeemable) :
    Except RedeemErr XTx := do
  let docs ← docsFrom t.design.incomplete 0 t.inputs
  let scripts ← scriptsOf (redeemStandard E hash160 H) t.inputs docs
  match t.design.complete scripts with
  | none => .error .ub
  | some x => .ok x

end Verif.Pay
