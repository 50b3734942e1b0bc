import Verif.Keys.HDProps

/-
Accounts of wallets (BIP 44) and sources of keys and addresses: include/gigamonkey/schema/bip_44.hpp, and schema/hd.hpp 187-229, schema/hd.cpp
228-249 and 267-269.
-/

namespace Verif.Keys
open Verif Verif.Text

variable {P : Type} [AddCommGroup P]

/-- schema/hd.hpp 37-39, `harden`. -/
def harden (x : BitVec 32) : BitVec 32 := x ||| 0x80000000

/-- bip_44.hpp 15. -/
def purpose : BitVec 32 := harden 44

/-- bip_44.hpp 17-23. -/
def coinBitcoin : BitVec 32 := harden 0
def coinBitcoinCash : BitVec 32 := harden 145
def coinBitcoinSV : BitVec 32 := harden 236
def coinTestnet : BitVec 32 := harden 1

/-- bip_44.hpp 25 and 27. -/
def receiveIndex : BitVec 32 := 0
def changeIndex : BitVec 32 := 1

/-- bip_44.hpp 29-31, `derivation_path`. -/
def derivationPath (account : BitVec 32) (change : Bool) (index coin : BitVec 32) : List (BitVec 32) :=
  [purpose, coin, harden account, if change then 1 else 0, index]

/-- schema/hd.hpp 77-79, `pubkey::address`. -/
def HDKey.address (F : Hashes) (k : HDKey) : Address := ⟨k.net, F.hash160 k.key⟩

/-- schema/hd.hpp 131-133. -/
def HDKey.toSecret (k : HDKey) : Secret := ⟨k.net, k.key, true⟩

/-- wif.hpp 131-137, `secret::address`. -/
def secretAddress (L : Lib P) (F : Hashes) (s : Secret) : Address := ⟨s.net, F.hash160 (Keys.toPublic L s.compressed s.key)⟩

/-- bip_44.hpp 38-44, `account_pubkey::receive` and `account_pubkey::change`. -/
noncomputable def accountAddress (L : Lib P) (F : Hashes) (fuel : Nat) (k : HDKey) (change : Bool) (index : BitVec 32) : Option Address :=
  (derivePubkeyPath L F fuel k [if change then changeIndex else receiveIndex, index]).map (HDKey.address F)

/-- bip_44.hpp 60-66, `account_secret::receive` and `account_secret::change`. -/
def accountSecret (L : Lib P) (F : Hashes) (fuel : Nat) (k : HDKey) (change : Bool) (index : BitVec 32) : Option Secret :=
  (deriveSecretPath L F fuel k [if change then changeIndex else receiveIndex, index]).map HDKey.toSecret

/-- bip_44.hpp 69-71 and 76-78, `from_root` and `master::account`. -/
def fromRoot (L : Lib P) (F : Hashes) (fuel : Nat) (k : HDKey) (coin account : BitVec 32) : Option HDKey :=
  deriveSecretPath L F fuel k [purpose, coin, harden account]

/-- schema/hd.cpp 228-249, `secret::from_seed`. -/
def fromSeed (F : Hashes) (seed : Bytes) (net : Net) : HDKey :=
  let m := F.mac ("Bitcoin seed".toList.map fun c => UInt8.ofNat c.toNat) seed
  ⟨m.take 32, m.drop 32, net, 0, 0, 0⟩

/-- schema/hd.hpp 187-207 and 209-229, `key_source` and `address_source`: an index and a key. -/
structure Source where
  index : BitVec 32
  key : HDKey

/-- schema/hd.hpp 194 and 216. -/
def Source.new (k : HDKey) : Source := ⟨1, k⟩

/-- schema/hd.hpp 196-198, `key_source::next`; none if the derivation takes more calls than `fuel`. -/
def Source.nextSecret (L : Lib P) (F : Hashes) (fuel : Nat) (s : Source) : Source × Option Secret :=
  ({ s with index := s.index + 1 }, (deriveSecretPath L F fuel s.key [s.index]).map HDKey.toSecret)

/-- schema/hd.hpp 218-220, `address_source::next`. -/
noncomputable def Source.nextAddress (L : Lib P) (F : Hashes) (fuel : Nat) (s : Source) : Source × Option Address :=
  ({ s with index := s.index + 1 }, (derivePubkeyPath L F fuel s.key [s.index]).map (HDKey.address F))

/-- What a source delivers, one after another. -/
def Source.secrets (L : Lib P) (F : Hashes) (fuel : Nat) (s : Source) : Nat → List (Option Secret)
  | 0 => []
  | n + 1 => (s.nextSecret L F fuel).2 :: (s.nextSecret L F fuel).1.secrets L F fuel n

/-- What a source delivers, one after another. -/
noncomputable def Source.addresses (L : Lib P) (F : Hashes) (fuel : Nat) (s : Source) : Nat → List (Option Address)
  | 0 => []
  | n + 1 => (s.nextAddress L F fuel).2 :: (s.nextAddress L F fuel).1.addresses L F fuel n

end Verif.Keys
