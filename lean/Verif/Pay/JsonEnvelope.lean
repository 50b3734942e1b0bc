import Verif.Pay.Redeem
import Verif.Net.Json

/-
JSON envelopes: include/gigamonkey/pay/envelope.hpp and pay/envelope.cpp.
Paths in citations are relative to /repo/src/gigamonkey.
-/

namespace Verif.Pay

open Verif Verif.Net Verif.Text Verif.Sig Verif.Keys

/-- `payload_encoding`, include/gigamonkey/pay/envelope.hpp 21-25. -/
inductive PayloadEncoding
  | none
  | utf8
  | base64
  deriving DecidableEq, Repr

/-- `JSON_envelope`, include/gigamonkey/pay/envelope.hpp 20-32.  Keys and signatures are bytes. -/
structure JsonEnvelope where
  payload : List Char
  encoding : PayloadEncoding
  mimetype : List Char
  publicKey : Option Bytes
  signature : Option Bytes
  deriving DecidableEq, Repr

/-- What is taken from the data library: the bytes of text, and base 64. -/
structure TextCodec where
  bytes : List Char → Bytes
  write64 : Bytes → List Char
  read64 : List Char → Option Bytes
  read_write : ∀ b, read64 (write64 b) = some b

/-- The default constructor, include/gigamonkey/pay/envelope.hpp 61. -/
def JsonEnvelope.empty : JsonEnvelope := ⟨[], .none, [], none, none⟩

/-- `valid`, include/gigamonkey/pay/envelope.hpp 86-88. -/
def JsonEnvelope.valid (e : JsonEnvelope) : Bool :=
  e.encoding ≠ .none && ((e.signature.isSome && e.publicKey.isSome) || (!e.signature.isSome && !e.publicKey.isSome))

/-- `verify`, pay/envelope.cpp 9-26.  `H` is SHA2-256.  The signature is there if the key is, in what is valid. -/
def JsonEnvelope.verify (T : TextCodec) (H : Bytes → BitVec 256) (V : Curve) (e : JsonEnvelope) : Bool :=
  if !e.valid then false
  else
    match e.publicKey, e.signature with
    | some k, some s =>
      match e.encoding with
      | .none => false
      | .base64 =>
        match T.read64 e.payload with
        | none => false
        | some b => V.verify k (H b) s
      | .utf8 => V.verify k (H (T.bytes e.payload)) s
    | _, _ => true

/-- The constructors for bytes and for text without a signature, include/gigamonkey/pay/envelope.hpp 98-102. -/
def JsonEnvelope.ofBytes (T : TextCodec) (b : Bytes) (mime : List Char) : JsonEnvelope := ⟨T.write64 b, .base64, mime, none, none⟩

def JsonEnvelope.ofText (s : List Char) (mime : List Char) : JsonEnvelope := ⟨s, .utf8, mime, none, none⟩

/-- The constructors that sign, include/gigamonkey/pay/envelope.hpp 104-110. -/
def JsonEnvelope.signBytes {P : Type} [AddCommGroup P] (T : TextCodec) (H : Bytes → BitVec 256) (E : Ecdsa P) (b : Bytes) (mime : List Char)
    (sk : Bytes) : JsonEnvelope :=
  ⟨T.write64 b, .base64, mime, some (toPublic E.lib true sk), some (E.sign sk (H b))⟩

def JsonEnvelope.signText {P : Type} [AddCommGroup P] (T : TextCodec) (H : Bytes → BitVec 256) (E : Ecdsa P) (s : List Char) (mime : List Char)
    (sk : Bytes) : JsonEnvelope :=
  ⟨s, .utf8, mime, some (toPublic E.lib true sk), some (E.sign sk (H (T.bytes s)))⟩

/-- The entries for the key and the signature, pay/envelope.cpp 68-71. -/
def signedEntries (k s : Option Bytes) : List (List Char × Json) :=
  match k, s with
  | some k, some s => [("publicKey".toList, .str (hexWrite k)), ("signature".toList, .str (hexWrite s))]
  | _, _ => []

/-- `operator JSON`, pay/envelope.cpp 62-74.  The name for text is "UTF_8". -/
def JsonEnvelope.toJson (e : JsonEnvelope) : Json :=
  if !e.valid then .null
  else
    .obj ([("payload".toList, .str e.payload), ("mimetype".toList, .str e.mimetype),
      ("encoding".toList, .str (if e.encoding = .base64 then "base64".toList else "UTF_8".toList))] ++
      signedEntries e.publicKey e.signature)

/-- The key and the signature, pay/envelope.cpp 35-48: nothing if reading ends there. -/
def readSigned (j : Json) : Option (Option Bytes × Option Bytes) :=
  if (j.get "publicKey".toList).isSome || (j.get "signature".toList).isSome then
    match j.get "publicKey".toList, j.get "signature".toList with
    | some (.str k), some (.str s) =>
      match hexRead s, hexRead k with
      | some s, some k => some (some k, some s)
      | _, _ => none
    | _, _ => none
  else some (none, none)

/-- `JSON_envelope (JSON)`, pay/envelope.cpp 28-60.  The name for text is "UTF-8".  Where the code returns early the envelope is the
empty one. -/
def JsonEnvelope.ofJson (j : Json) : JsonEnvelope :=
  match j.get "payload".toList, j.get "encoding".toList, j.get "mimetype".toList with
  | some (.str payload), some (.str encoding), some (.str mime) =>
    match readSigned j with
    | none => .empty
    | some (k, s) =>
      if encoding = "base64".toList then ⟨payload, .base64, mime, k, s⟩
      else if encoding = "UTF-8".toList then ⟨payload, .utf8, mime, k, s⟩
      else .empty
  | _, _, _ => .empty

/-- `JSON_JSON_envelope::valid`, pay/envelope.cpp 76-84: `parses` says if the JSON library reads the payload. -/
def JsonEnvelope.jsonValid (parses : List Char → Bool) (e : JsonEnvelope) : Bool := e.valid && parses e.payload

end Verif.Pay
