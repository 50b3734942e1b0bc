import Verif.Keys.Bip44Props

/-
Wallets that are found again from words: schema/bip_39.cpp 44-62, schema/electrum_SV.cpp 11-24 and include/gigamonkey/schema/bip_39.hpp 32-57.

Texts are their bytes.  The key derivation function (PBKDF2 with HMAC and SHA-512, 2048 rounds and 64 bytes) is a parameter.
-/

namespace Verif.Keys
open Verif Verif.Text

variable {P : Type} [AddCommGroup P]

/-- The bytes of a text that has only ASCII characters. -/
def ascii (s : String) : Bytes := s.toList.map fun c => UInt8.ofNat c.toNat

/-- bip_39.hpp 18-21. -/
inductive Language
  | english
  | japanese
  deriving DecidableEq

/-- schema/bip_39.cpp 44-62, `BIP_39::read`; `kdf` takes a password and a salt.  Nothing if an exception is thrown.  Neither the words nor the
passphrase are checked or normalised. -/
def bip39Read (kdf : Bytes → Bytes → Bytes) (words passphrase : Bytes) (lang : Language) : Option Bytes :=
  if lang ≠ .english then none else some (kdf words (ascii "mnemonic" ++ passphrase))

/-- schema/electrum_SV.cpp 11-24, `Electrum_SV::read`; `kdf` is a function of the data library that takes one text. -/
def electrumRead (kdf : Bytes → Bytes) (words passphrase : Bytes) : Bytes := kdf (words ++ ascii "electrum" ++ passphrase)

/-- `std::to_string` of a number of 32 bits. -/
def decimalText (n : BitVec 32) : Bytes :=
  if n = 0 then [48] else (toDigitsBE 10 n.toNat).map fun d => UInt8.ofNat (48 + d)

/-- bip_39.hpp 34-36: `simply_cash_wallet`, with the coin of bip_44.hpp 82; nothing if the derivation takes more calls than `fuel`.  The words are
taken to be in English, which is the default. -/
def simplyCashWallet (L : Lib P) (F : Hashes) (fuel : Nat) (kdf : Bytes → Bytes → Bytes) (words : Bytes) (account : BitVec 32) (net : Net) :
    Option HDKey :=
  (bip39Read kdf words [] .english).bind fun seed => fromRoot L F fuel (fromSeed F seed net) coinBitcoinCash account

/-- bip_39.hpp 38-40: `moneybutton_wallet`, with the coin of bip_44.hpp 84. -/
def moneybuttonWallet (L : Lib P) (F : Hashes) (fuel : Nat) (kdf : Bytes → Bytes → Bytes) (words : Bytes) (account : BitVec 32) (net : Net) :
    Option HDKey :=
  (bip39Read kdf words [] .english).bind fun seed => fromRoot L F fuel (fromSeed F seed net) coinBitcoin account

/-- bip_39.hpp 42-44: `relay_x_wallet`, with the coin of bip_44.hpp 86. -/
def relayXWallet (L : Lib P) (F : Hashes) (fuel : Nat) (kdf : Bytes → Bytes → Bytes) (words : Bytes) (account : BitVec 32) (net : Net) :
    Option HDKey :=
  (bip39Read kdf words [] .english).bind fun seed => fromRoot L F fuel (fromSeed F seed net) coinBitcoinSV account

/-- bip_39.hpp 50-53: `centbee_wallet`, with the coin of bip_44.hpp 91, which is not hardened. -/
def centbeeWallet (L : Lib P) (F : Hashes) (fuel : Nat) (kdf : Bytes → Bytes → Bytes) (words : Bytes) (pin : BitVec 32) (net : Net) :
    Option HDKey :=
  (bip39Read kdf words (decimalText pin) .english).bind fun seed => deriveSecretPath L F fuel (fromSeed F seed net) [purpose, 0]

end Verif.Keys
