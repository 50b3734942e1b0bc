import Verif.Pay.JsonEnvelope
import Verif.Pay.RedeemProps

/-
C67: JSON envelopes.
-/

namespace Verif.Pay

open Verif Verif.Net Verif.Text Verif.Sig Verif.Keys

namespace Spec

/-- What an envelope carries: the bytes that its payload stands for. -/
def Carries (T : TextCodec) (e : JsonEnvelope) (b : Bytes) : Prop :=
  (e.encoding = .base64 ∧ T.read64 e.payload = some b) ∨ (e.encoding = .utf8 ∧ T.bytes e.payload = b)

end Spec

open Spec

theorem read_written (payload mime enc : List Char) (k s : Option Bytes) (h : k.isSome = s.isSome) :
    let j := Json.obj ([("payload".toList, .str payload), ("mimetype".toList, .str mime), ("encoding".toList, .str enc)] ++
      signedEntries k s)
    j.get "payload".toList = some (.str payload) ∧ j.get "encoding".toList = some (.str enc) ∧
      j.get "mimetype".toList = some (.str mime) ∧ readSigned j = some (k, s) := by
  cases k with
  | none =>
    cases s with
    | some s => simp at h
    | none => exact ⟨rfl, rfl, rfl, rfl⟩
  | some k =>
    cases s with
    | none => simp at h
    | some s =>
      refine ⟨rfl, rfl, rfl, ?_⟩
      have h1 : ∀ l : List (List Char × Json), (Json.obj ([("payload".toList, .str payload), ("mimetype".toList, .str mime), ("encoding".toList, .str enc)] ++
        [("publicKey".toList, .str (hexWrite k)), ("signature".toList, .str (hexWrite s))])).get "publicKey".toList = some (.str (hexWrite k)) :=
        fun _ => rfl
      have h2 : ∀ l : List (List Char × Json), (Json.obj ([("payload".toList, .str payload), ("mimetype".toList, .str mime), ("encoding".toList, .str enc)] ++
        [("publicKey".toList, .str (hexWrite k)), ("signature".toList, .str (hexWrite s))])).get "signature".toList = some (.str (hexWrite s)) :=
        fun _ => rfl
      simp only [readSigned, h1 [], h2 [], signedEntries, hexRead_write, Option.isSome_some, Bool.or_true, if_true]

theorem valid_parts {e : JsonEnvelope} (h : e.valid = true) : e.encoding ≠ .none ∧ e.publicKey.isSome = e.signature.isSome := by
  obtain ⟨payload, encoding, mime, k, s⟩ := e
  cases k <;> cases s <;> simp [JsonEnvelope.valid] at h ⊢ <;> exact h

/-- **C67**, for binary payloads: a valid envelope is read back from its JSON with the same payload, encoding, key and
signature. -/
theorem C67_binary_partial (e : JsonEnvelope) (hv : e.valid = true) (hb : e.encoding = .base64) : JsonEnvelope.ofJson e.toJson = e := by
  obtain ⟨-, hks⟩ := valid_parts hv
  obtain ⟨payload, encoding, mime, k, s⟩ := e
  simp only at hb hks
  subst hb
  obtain ⟨h1, h2, h3, h4⟩ := read_written payload mime "base64".toList k s hks
  unfold JsonEnvelope.toJson
  rw [hv]
  simp only [Bool.not_true, Bool.false_eq_true, if_false, if_true]
  unfold JsonEnvelope.ofJson
  rw [h1, h2, h3, h4]
  simp

/-- **C67** is false of text: no valid envelope of text is read back, what is read is the empty one, which is not valid. -/
theorem C67_false_text (e : JsonEnvelope) (hv : e.valid = true) (hb : e.encoding = .utf8) :
    JsonEnvelope.ofJson e.toJson = .empty ∧ JsonEnvelope.empty.valid = false := by
  refine ⟨?_, rfl⟩
  obtain ⟨-, hks⟩ := valid_parts hv
  obtain ⟨payload, encoding, mime, k, s⟩ := e
  simp only at hb hks
  subst hb
  obtain ⟨h1, h2, h3, h4⟩ := read_written payload mime "UTF_8".toList k s hks
  unfold JsonEnvelope.toJson
  rw [hv]
  simp only [Bool.not_true, Bool.false_eq_true, if_false, reduceCtorEq]
  unfold JsonEnvelope.ofJson
  rw [h1, h2, h3, h4]
  simp only
  rw [if_neg (by decide), if_neg (by decide)]

/-- **C67**: an envelope is verified if and only if it is valid and, where there is a key, what it carries can be read and the
signature is one of it by that key. -/
theorem C67_verified_iff (T : TextCodec) (H : Bytes → BitVec 256) (V : Curve) (e : JsonEnvelope) : e.verify T H V = true ↔
    e.valid = true ∧ ∀ k, e.publicKey = some k → ∃ s b, e.signature = some s ∧ Carries T e b ∧ V.verify k (H b) s = true := by
  unfold JsonEnvelope.verify
  cases hv : e.valid with
  | false => simp
  | true =>
    obtain ⟨he, hks⟩ := valid_parts hv
    simp only [Bool.not_true, Bool.false_eq_true, if_false, true_and]
    cases hk : e.publicKey with
    | none => simp
    | some k =>
      rw [hk] at hks
      obtain ⟨s, hs⟩ := Option.isSome_iff_exists.mp hks.symm
      rw [hs]
      simp only [Option.some.injEq, forall_eq']
      cases hen : e.encoding with
      | none => exact absurd hen he
      | base64 =>
        simp only
        constructor
        · intro h
          cases hr : T.read64 e.payload with
          | none => rw [hr] at h; simp at h
          | some b => rw [hr] at h; exact ⟨s, b, rfl, .inl ⟨hen, hr⟩, h⟩
        · rintro ⟨_, b, rfl, ⟨-, hc⟩ | ⟨hc, -⟩, h⟩
          · rw [hc]; exact h
          · rw [hen] at hc; cases hc
      | utf8 =>
        simp only
        constructor
        · intro h; exact ⟨s, _, rfl, .inr ⟨hen, rfl⟩, h⟩
        · rintro ⟨_, b, rfl, ⟨hc, -⟩ | ⟨-, hc⟩, h⟩
          · rw [hen] at hc; cases hc
          · rw [hc]; exact h

theorem own_key {P : Type} [AddCommGroup P] (E : Ecdsa P) {sk : Bytes} (h : secretOk sk = true) (d : BitVec 256) :
    E.curve.verify (toPublic E.lib true sk) d (E.sign sk d) = true := by
  have hb : 0 < Keys.beNat sk ∧ Keys.beNat sk < order := by simpa [secretOk] using h
  unfold Ecdsa.curve toPublic
  rw [if_pos h]
  simp only
  rw [E.lib.parse_enc true _ (E.lib.smallest _ hb.1 hb.2)]
  exact E.sign_verifies sk d h

/-- **C67**: an envelope that is made and signed with a secret key is verified, carries what it was made of, and so is, for a
binary payload, the one that is read from its JSON. -/
theorem C67_signed {P : Type} [AddCommGroup P] (T : TextCodec) (H : Bytes → BitVec 256) (E : Ecdsa P) (mime : List Char) (sk : Bytes)
    (h : secretOk sk = true) :
    (∀ b, (JsonEnvelope.signBytes T H E b mime sk).verify T H E.curve = true ∧ Carries T (JsonEnvelope.signBytes T H E b mime sk) b ∧
      (JsonEnvelope.ofJson (JsonEnvelope.signBytes T H E b mime sk).toJson).verify T H E.curve = true) ∧
    ∀ s, (JsonEnvelope.signText T H E s mime sk).verify T H E.curve = true ∧
      Carries T (JsonEnvelope.signText T H E s mime sk) (T.bytes s) := by
  constructor
  · intro b
    have h2 : Carries T (JsonEnvelope.signBytes T H E b mime sk) b := .inl ⟨rfl, T.read_write b⟩
    have h1 : (JsonEnvelope.signBytes T H E b mime sk).verify T H E.curve = true := by
      rw [C67_verified_iff]
      refine ⟨rfl, ?_⟩
      intro k hk
      cases hk
      exact ⟨_, b, rfl, h2, own_key E h _⟩
    refine ⟨h1, h2, ?_⟩
    rw [C67_binary_partial _ rfl rfl]
    exact h1
  · intro s
    have h2 : Carries T (JsonEnvelope.signText T H E s mime sk) (T.bytes s) := .inr ⟨rfl, rfl⟩
    refine ⟨?_, h2⟩
    rw [C67_verified_iff]
    refine ⟨rfl, ?_⟩
    intro k hk
    cases hk
    exact ⟨_, _, rfl, h2, own_key E h _⟩

/-- **C67**: an envelope that is made without a key is valid, carries what it was made of, and is verified whatever the
hash and the curve; that of bytes is read back from its JSON. -/
theorem C67_unsigned (T : TextCodec) (H : Bytes → BitVec 256) (V : Curve) (mime : List Char) :
    (∀ b, (JsonEnvelope.ofBytes T b mime).verify T H V = true ∧ Carries T (JsonEnvelope.ofBytes T b mime) b ∧
      JsonEnvelope.ofJson (JsonEnvelope.ofBytes T b mime).toJson = JsonEnvelope.ofBytes T b mime) ∧
    ∀ s, (JsonEnvelope.ofText s mime).verify T H V = true ∧ Carries T (JsonEnvelope.ofText s mime) (T.bytes s) ∧
      (JsonEnvelope.ofText s mime).payload = s ∧ (JsonEnvelope.ofText s mime).encoding = .utf8 :=
  ⟨fun b => ⟨rfl, .inl ⟨rfl, T.read_write b⟩, C67_binary_partial _ rfl rfl⟩, fun _ => ⟨rfl, .inr ⟨rfl, rfl⟩, rfl, rfl⟩⟩

/-- **C67**: what lacks the payload, the encoding or the type, or has a key without a signature, is not read as a valid
envelope. -/
theorem C67_refused (j : Json) (h : j.isObj = false ∨ j.get "payload".toList = none ∨ j.get "encoding".toList = none ∨
    j.get "mimetype".toList = none ∨ (j.get "publicKey".toList).isSome ≠ (j.get "signature".toList).isSome) :
    (JsonEnvelope.ofJson j).valid = false := by
  have hn : ∀ key, j.isObj = false → j.get key = none := by
    intro key hj
    cases j <;> first | rfl | simp [Json.isObj] at hj
  have he : JsonEnvelope.ofJson j = .empty := by
    unfold JsonEnvelope.ofJson
    split
    · rename_i payload encoding mime h1 h2 h3
      rw [h1, h2, h3] at h
      rcases h with h | h | h | h | h
      · rw [hn _ h] at h1; cases h1
      · cases h
      · cases h
      · cases h
      · have : readSigned j = none := by
          unfold readSigned
          cases hk : j.get "publicKey".toList with
          | none =>
            cases hs : j.get "signature".toList with
            | none => rw [hk, hs] at h; exact absurd rfl h
            | some s => simp
          | some k =>
            cases hs : j.get "signature".toList with
            | none => cases k <;> simp
            | some s => rw [hk, hs] at h; exact absurd rfl h
        rw [this]
    · rfl
  rw [he]
  rfl

/-- Text in hexadecimal digits in place of base 64. -/
def hexCodec : TextCodec := ⟨fun s => s.map fun c => UInt8.ofNat c.toNat, hexWrite, hexRead, hexRead_write⟩

-- envelopes that are valid, of both kinds, and a key to sign with
example : (JsonEnvelope.ofBytes hexCodec [1, 2] "a/b".toList).valid = true ∧ (JsonEnvelope.ofBytes hexCodec [1, 2] "a/b".toList).encoding = .base64 ∧
    (JsonEnvelope.ofText "x".toList "a/b".toList).valid = true ∧ (JsonEnvelope.ofText "x".toList "a/b".toList).encoding = .utf8 ∧
    secretOk exampleKey.key = true := by decide +kernel

/-- **C67**: an envelope is accepted as one of JSON if and only if an encoding is given, a key and a signature are both there or both not, and its
payload can be read as JSON. -/
theorem C67_json_iff (parses : List Char → Bool) (e : JsonEnvelope) : e.jsonValid parses = true ↔
    e.encoding ≠ .none ∧ (e.publicKey.isSome ↔ e.signature.isSome) ∧ parses e.payload = true := by
  obtain ⟨payload, encoding, mime, k, s⟩ := e
  cases k <;> cases s <;> simp [JsonEnvelope.jsonValid, JsonEnvelope.valid]

/-- **C67**, for text: the JSON that is read of an envelope that is accepted and verified is what was signed. -/
theorem C67_json_signed_partial (T : TextCodec) (H : Bytes → BitVec 256) (V : Curve) (parses : List Char → Bool) (e : JsonEnvelope)
    (hv : e.verify T H V = true) (hj : e.jsonValid parses = true) (ht : e.encoding = .utf8) (k : Bytes) (hk : e.publicKey = some k) :
    parses e.payload = true ∧ ∃ s, e.signature = some s ∧ V.verify k (H (T.bytes e.payload)) s = true := by
  refine ⟨((C67_json_iff parses e).1 hj).2.2, ?_⟩
  obtain ⟨s, b, hs, ⟨hc, -⟩ | ⟨-, hc⟩, h⟩ := ((C67_verified_iff T H V e).1 hv).2 k hk
  · rw [ht] at hc; cases hc
  · exact ⟨s, hs, by rw [hc]; exact h⟩

/-- **C67, false as stated**, for binary payloads: bytes that are signed and put into an envelope in base 64 are accepted as JSON if the digits of base 64
are, and what is then read is not what was signed. -/
theorem C67_false_json {P : Type} [AddCommGroup P] (T : TextCodec) (H : Bytes → BitVec 256) (E : Ecdsa P) (parses : List Char → Bool)
    (mime : List Char) (sk b : Bytes) (h : secretOk sk = true) (hp : parses (T.write64 b) = true) (hb : b ≠ T.bytes (T.write64 b)) :
    let e := JsonEnvelope.signBytes T H E b mime sk
    e.verify T H E.curve = true ∧ e.jsonValid parses = true ∧ e.payload = T.write64 b ∧ Carries T e b ∧ ¬ Carries T e (T.bytes e.payload) := by
  obtain ⟨h1, h2, -⟩ := (C67_signed T H E mime sk h).1 b
  refine ⟨h1, (C67_json_iff _ _).2 ⟨by simp [JsonEnvelope.signBytes], by simp [JsonEnvelope.signBytes], hp⟩, rfl, h2, ?_⟩
  rintro (⟨-, hc⟩ | ⟨hc, -⟩)
  · rw [show (JsonEnvelope.signBytes T H E b mime sk).payload = T.write64 b from rfl, T.read_write] at hc
    exact hb (Option.some.inj hc)
  · cases hc

-- bytes whose digits are a number
example : hexCodec.write64 [0x12, 0x34] = "1234".toList ∧ ([0x12, 0x34] : Bytes) ≠ hexCodec.bytes (hexCodec.write64 [0x12, 0x34]) := by
  decide +kernel

end Verif.Pay
