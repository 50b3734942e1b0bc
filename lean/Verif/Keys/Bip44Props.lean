import Verif.Keys.Bip44

/-
Property C113: the addresses of an account are found with its public key alone.
-/

namespace Verif.Keys
open Verif Verif.Text

variable {P : Type} [AddCommGroup P]

theorem toSecret_address (L : Lib P) (F : Hashes) (k : HDKey) :
    secretAddress L F k.toSecret = (k.toPublic L).address F := rfl

theorem deriveSecretPath_append (L : Lib P) (F : Hashes) (fuel : Nat) (k : HDKey) (a b : List (BitVec 32)) :
    deriveSecretPath L F fuel k (a ++ b) = (deriveSecretPath L F fuel k a).bind fun k' => deriveSecretPath L F fuel k' b := by
  induction a generalizing k with
  | nil => rfl
  | cons c a ih =>
    simp only [List.cons_append, deriveSecretPath, Option.bind_assoc]
    congr 1
    funext k'
    exact ih k'

/-- **C113** The key that a wallet has for an account, for change or not, and an index is that at the place in the tree of keys that BIP 44
gives for it: 44', the coin, the account, hardened, zero or one, and the index. -/
theorem C113_path (L : Lib P) (F : Hashes) (fuel : Nat) (master : HDKey) (coin account index : BitVec 32) (change : Bool)
    (ha : account.toNat < 2 ^ 31) :
    ((fromRoot L F fuel master coin account).bind fun k => accountSecret L F fuel k change index) =
      (deriveSecretPath L F fuel master
        [0x8000002c, coin, BitVec.ofNat 32 (2 ^ 31 + account.toNat), if change then 1 else 0, index]).map HDKey.toSecret ∧
    derivationPath account change index coin =
      [0x8000002c, coin, BitVec.ofNat 32 (2 ^ 31 + account.toNat), if change then 1 else 0, index] := by
  have hh : harden account = BitVec.ofNat 32 (2 ^ 31 + account.toNat) := by
    apply BitVec.eq_of_toNat_eq
    unfold harden
    rw [BitVec.toNat_or, BitVec.toNat_ofNat, Nat.mod_eq_of_lt (by omega)]
    have h1 : (0x80000000 : BitVec 32).toNat = 0x80000000 := rfl
    rw [h1, lor_hard ha]
    omega
  have hp : purpose = 0x8000002c := by decide
  refine ⟨?_, by rw [derivationPath, hh, hp]⟩
  have : [0x8000002c, coin, BitVec.ofNat 32 (2 ^ 31 + account.toNat), if change then 1 else 0, index] =
      [purpose, coin, harden account] ++ [if change then changeIndex else receiveIndex, index] := by
    rw [hh, hp]
    rfl
  rw [this, deriveSecretPath_append, fromRoot]
  cases deriveSecretPath L F fuel master [purpose, coin, harden account] with
  | none => rfl
  | some k => rfl

example : (5 : BitVec 32).toNat < 2 ^ 31 := by decide

/-- **C113** The coins: 0', 145', 236' and 1'. -/
theorem C113_coins : coinBitcoin.toNat = 2 ^ 31 ∧ coinBitcoinCash.toNat = 2 ^ 31 + 145 ∧ coinBitcoinSV.toNat = 2 ^ 31 + 236 ∧
    coinTestnet.toNat = 2 ^ 31 + 1 := by decide

/-- **C113, partial** For receiving and for change, and for every index, the address that is found with the public key of the account is that of
the secret key that is found with its secret key.  What is missing are the cases in which a derivation is not the usual one. -/
theorem C113_addresses_partial (L : Lib P) (F : Hashes) (account : HDKey) (change : Bool) (index : BitVec 32)
    (h : Usual L F account [if change then 1 else 0, index]) (fuel : Nat) :
    ∃ s, accountSecret L F (fuel + 1) account change index = some s ∧
      accountAddress L F (fuel + 1) (account.toPublic L) change index = some (secretAddress L F s) := by
  have hi : (if change then changeIndex else receiveIndex) = if change then 1 else 0 := rfl
  obtain ⟨s, h1, h2⟩ := C42_path_partial L F account _ h fuel
  refine ⟨s.toSecret, ?_, ?_⟩
  · rw [accountSecret, hi, h1]; rfl
  · rw [accountAddress, hi, h2]; rfl

/-- **C113, partial** A source of addresses, made with the public key, delivers one after another the addresses of the secret keys that the source of keys
delivers, as far as the derivations are the usual ones. -/
theorem C113_sources_partial (L : Lib P) (F : Hashes) (k : HDKey) (fuel n : Nat) (i : BitVec 32)
    (h : ∀ j < n, Usual L F k [i + BitVec.ofNat 32 j]) :
    Source.addresses L F (fuel + 1) ⟨i, k.toPublic L⟩ n =
      (Source.secrets L F (fuel + 1) ⟨i, k⟩ n).map (fun s => s.map (secretAddress L F)) ∧
    ∀ s ∈ Source.secrets L F (fuel + 1) ⟨i, k⟩ n, s.isSome := by
  induction n generalizing i with
  | zero => exact ⟨rfl, by simp [Source.secrets]⟩
  | succ n ih =>
    have h0 := h 0 (Nat.succ_pos n)
    rw [show i + BitVec.ofNat 32 0 = i by simp] at h0
    obtain ⟨s, h1, h2⟩ := C42_path_partial L F k _ h0 fuel
    obtain ⟨i1, i2⟩ := ih (i + 1) fun j hj => by
      have := h (j + 1) (by omega)
      rwa [BitVec.ofNat_add, BitVec.add_comm (BitVec.ofNat 32 j), ← BitVec.add_assoc] at this
    have e1 : Source.addresses L F (fuel + 1) ⟨i, k.toPublic L⟩ (n + 1) =
        (derivePubkeyPath L F (fuel + 1) (k.toPublic L) [i]).map (HDKey.address F) ::
          Source.addresses L F (fuel + 1) ⟨i + 1, k.toPublic L⟩ n := rfl
    have e2 : Source.secrets L F (fuel + 1) ⟨i, k⟩ (n + 1) =
        (deriveSecretPath L F (fuel + 1) k [i]).map HDKey.toSecret :: Source.secrets L F (fuel + 1) ⟨i + 1, k⟩ n := rfl
    rw [e1, e2, h1, h2, i1]
    refine ⟨rfl, ?_⟩
    intro x hx
    rcases List.mem_cons.1 hx with rfl | hx
    · rfl
    · exact i2 x hx

/-- **C113** A source that is made of a key alone begins with index one: what it delivers after `j` others is at the index `j + 1`, and that at index
zero, the first in BIP 44, comes only when 2^32 - 1 others have been delivered. -/
theorem C113_begins (L : Lib P) (F : Hashes) (k : HDKey) (fuel n j : Nat) (h : j < n) :
    (Source.secrets L F fuel (Source.new k) n)[j]? =
      some ((deriveSecretPath L F fuel k [BitVec.ofNat 32 (j + 1)]).map HDKey.toSecret) ∧
    (Source.addresses L F fuel (Source.new k) n)[j]? =
      some ((derivePubkeyPath L F fuel k [BitVec.ofNat 32 (j + 1)]).map (HDKey.address F)) ∧
    (BitVec.ofNat 32 (j + 1) = 0 → 2 ^ 32 - 1 ≤ j) := by
  have key : ∀ (n j : Nat) (i : BitVec 32), j < n →
      (Source.secrets L F fuel ⟨i, k⟩ n)[j]? = some ((deriveSecretPath L F fuel k [i + BitVec.ofNat 32 j]).map HDKey.toSecret) ∧
      (Source.addresses L F fuel ⟨i, k⟩ n)[j]? = some ((derivePubkeyPath L F fuel k [i + BitVec.ofNat 32 j]).map (HDKey.address F)) := by
    intro n
    induction n with
    | zero => intro j i h; omega
    | succ n ih =>
      intro j i h
      cases j with
      | zero => simp [Source.secrets, Source.addresses, Source.nextSecret, Source.nextAddress]
      | succ j =>
        have e : i + BitVec.ofNat 32 (j + 1) = i + 1 + BitVec.ofNat 32 j := by
          rw [BitVec.ofNat_add, BitVec.add_comm (BitVec.ofNat 32 j), ← BitVec.add_assoc]
          rfl
        rw [e]
        exact ih j (i + 1) (by omega)
  have e : BitVec.ofNat 32 (j + 1) = 1 + BitVec.ofNat 32 j := by
    rw [BitVec.ofNat_add, BitVec.add_comm (BitVec.ofNat 32 j)]
    rfl
  refine ⟨?_, ?_, ?_⟩
  · rw [e]; exact (key n j 1 h).1
  · rw [e]; exact (key n j 1 h).2
  · intro h0
    have := congrArg BitVec.toNat h0
    simp only [BitVec.toNat_ofNat] at this
    have : (j + 1) % 2 ^ 32 = 0 := this
    omega

/-- **C113, false as stated** From index 2^31 on, whatever the account and its network, the address that is found with the public key is that of
the empty string on the main network, to which nobody has a key. -/
theorem C113_false_hardened (L : Lib P) (F : Hashes) (k : HDKey) (change : Bool) (index : BitVec 32) (hi : 2 ^ 31 ≤ index.toNat)
    (fuel : Nat) (a : Address) (h : accountAddress L F (fuel + 1) k change index = some a) : a = ⟨.main, F.hash160 []⟩ := by
  have hh : hardened index = true := by simpa [hardened] using hi
  unfold accountAddress derivePubkeyPath at h
  cases h1 : derivePubkey L F k (fuel + 1) (if change then changeIndex else receiveIndex) with
  | none => rw [h1] at h; simp at h
  | some k' =>
    rw [h1] at h
    simp only [Option.bind_some, derivePubkeyPath, C42_hardened L F k' index hh fuel, Option.map_some, Option.some.injEq] at h
    exact h.symm

/-- **C113, false as stated** A source of addresses that has come to index 2^31 delivers that same address ever after, until the index is zero
again. -/
theorem C113_false_source (L : Lib P) (F : Hashes) (k : HDKey) (index : BitVec 32) (hi : 2 ^ 31 ≤ index.toNat) (fuel n : Nat)
    (hn : index.toNat + n ≤ 2 ^ 32) :
    Source.addresses L F (fuel + 1) ⟨index, k⟩ n = List.replicate n (some ⟨.main, F.hash160 []⟩) := by
  induction n generalizing index with
  | zero => rfl
  | succ n ih =>
    have hh : hardened index = true := by simpa [hardened] using hi
    have e1 : Source.addresses L F (fuel + 1) ⟨index, k⟩ (n + 1) =
        (derivePubkeyPath L F (fuel + 1) k [index]).map (HDKey.address F) :: Source.addresses L F (fuel + 1) ⟨index + 1, k⟩ n := rfl
    have e2 : derivePubkeyPath L F (fuel + 1) k [index] = some .noPubkey := by
      simp [derivePubkeyPath, C42_hardened L F k index hh fuel]
    rw [e1, e2, List.replicate_succ]
    congr 1
    cases n with
    | zero => rfl
    | succ n =>
      have : (index + 1).toNat = index.toNat + 1 := by
        rw [BitVec.toNat_add]
        simp
        omega
      exact ih (index + 1) (by omega) (by omega)

example : Source.addresses (P := P) L F 1 ⟨0xfffffffe, k⟩ 2 = [some ⟨.main, F.hash160 []⟩, some ⟨.main, F.hash160 []⟩] :=
  C113_false_source L F k 0xfffffffe (by decide) 0 2 (by decide)

/-- **C113, false as stated** An account with a number of at least 2^31 is the same as that with a number 2^31 less. -/
theorem C113_false_accounts (L : Lib P) (F : Hashes) (fuel : Nat) (master : HDKey) (coin a : BitVec 32) (ha : a.toNat < 2 ^ 31) :
    fromRoot L F fuel master coin (a + 0x80000000) = fromRoot L F fuel master coin a := by
  have : harden (a + 0x80000000) = harden a := by
    have : a + 0x80000000 = a ||| 0x80000000 := by
      apply BitVec.eq_of_toNat_eq
      have h1 : (0x80000000 : BitVec 32).toNat = 0x80000000 := rfl
      rw [BitVec.toNat_or, BitVec.toNat_add, h1, lor_hard ha]
      omega
    rw [harden, harden, this, BitVec.or_assoc, BitVec.or_self]
  rw [fromRoot, this, fromRoot]

/-- **C113, false as stated** When a derivation is passed over, a source of keys delivers the same key twice. -/
theorem C113_false_repeated (L : Lib P) (F : Hashes) (k : HDKey) (i : BitVec 32) (hc : hardened i = false)
    (h : beNat (leftHalf L F k i) > order) (fuel : Nat) (s : Secret)
    (hs : (Source.nextSecret L F fuel (Source.nextSecret L F fuel ⟨i, k⟩).1).2 = some s) :
    (Source.nextSecret L F (fuel + 1) ⟨i, k⟩).2 = some s := by
  have h1 : deriveSecret L F k (fuel + 1) i = deriveSecret L F k fuel (i + 1) := by
    unfold leftHalf at h
    conv => lhs; unfold deriveSecret
    simp only [hc, Bool.false_eq_true, if_false]
    rw [if_pos h]
  have h2 : (Source.nextSecret L F (fuel + 1) ⟨i, k⟩).2 =
      ((deriveSecret L F k (fuel + 1) i).bind fun k' => some k').map HDKey.toSecret := rfl
  have h3 : (Source.nextSecret L F fuel (Source.nextSecret L F fuel ⟨i, k⟩).1).2 =
      ((deriveSecret L F k fuel (i + 1)).bind fun k' => some k').map HDKey.toSecret := rfl
  rw [h2, h1, ← h3]
  exact hs

/-- **C113** The master key of a seed: the halves of the authentication code of the seed. -/
theorem C113_seed (F : Hashes) (seed : Bytes) (net : Net) (left right : Bytes) (hl : left.length = 32)
    (h : F.mac [0x42, 0x69, 0x74, 0x63, 0x6f, 0x69, 0x6e, 0x20, 0x73, 0x65, 0x65, 0x64] seed = left ++ right) :
    fromSeed F seed net = ⟨left, right, net, 0, 0, 0⟩ := by
  have hk : ("Bitcoin seed".toList.map fun c => UInt8.ofNat c.toNat) =
      [0x42, 0x69, 0x74, 0x63, 0x6f, 0x69, 0x6e, 0x20, 0x73, 0x65, 0x65, 0x64] := by decide
  unfold fromSeed
  rw [hk, h]
  simp only [← hl, List.take_left, List.drop_left]

/-- **C113, false as stated** A seed for which the left half is no secret key, which BIP 32 excludes, gives a master key that is none, and nothing
says so. -/
theorem C113_false_seed (F : Hashes) (seed : Bytes) (net : Net)
    (h : order ≤ beNat ((F.mac ("Bitcoin seed".toList.map fun c => UInt8.ofNat c.toNat) seed).take 32)) :
    secretOk (fromSeed F seed net).key = false := by
  unfold secretOk fromSeed
  simp only [decide_eq_false_iff_not]
  omega

/-! A case in which every derivation is the usual one -/

theorem example_left (k : HDKey) (n : Nat) (hk : k.key = be32 n) (h0 : 0 < n) (hn : n < 1000) (c : BitVec 32) :
    secretOk k.key = true ∧ leftHalf exampleLib exampleHashes k c = List.replicate 31 0 ++ [38] := by
  have hok : secretOk k.key = true := by
    rw [hk]
    exact secretOk_be32 (by omega) (by unfold order; omega)
  refine ⟨hok, ?_⟩
  have hl : (toPublic exampleLib true k.key ++ be4 c).length = 37 := by
    rw [List.length_append, toPublic_ok _ _ hok, exampleLib.enc_length]; rfl
  simp [leftHalf, exampleHashes, hl]

theorem example_usual (k : HDKey) (n : Nat) (hk : k.key = be32 n) (h0 : 0 < n) (cs : List (BitVec 32)) (hn : n + 38 * cs.length < 1000)
    (hc : ∀ c ∈ cs, hardened c = false) : Usual exampleLib exampleHashes k cs := by
  induction cs generalizing k n with
  | nil => exact .nil k (example_left k n hk h0 (by simpa using hn) 0).1
  | cons c cs ih =>
    rw [List.length_cons] at hn
    obtain ⟨h1, h2⟩ := example_left k n hk h0 (by omega) c
    have hb : beNat (be32 n) = n := by
      unfold beNat be32
      rw [List.reverse_reverse, leNat_leBytes 32 n (by omega)]
    have h3 : beNat (List.replicate 31 0 ++ [38]) = 38 := by decide
    have h4 : (beNat (leftHalf exampleLib exampleHashes k c) + beNat k.key) % order = n + 38 := by
      rw [h2, h3, hk, hb, Nat.mod_eq_of_lt (by unfold order; omega)]
      omega
    refine .cons k c cs h1 (hc c List.mem_cons_self) (by rw [h2]; decide) (by rw [h2]; decide) (by omega) ?_
    intro s hs
    rw [deriveSecret_usual exampleLib exampleHashes k c (hc c List.mem_cons_self) (by rw [h2]; decide) (by omega) 0] at hs
    obtain rfl := Option.some.inj hs
    refine ih _ (n + 38) ?_ (by omega) (by omega) fun c hc' => hc c (List.mem_cons_of_mem _ hc')
    rw [usualChild, h4]

/-- The first ten addresses for receiving of an account. -/
example (i : BitVec 32) (h : i.toNat < 10) :
    Usual exampleLib exampleHashes ⟨be32 5, List.replicate 32 9, .main, 3, 0, 0⟩ [if false then 1 else 0, i] :=
  example_usual _ 5 rfl (by decide) _ (by simp) (by
    intro c hc
    simp only [List.mem_cons, List.not_mem_nil, or_false] at hc
    rcases hc with rfl | rfl
    · decide
    · simp [hardened]
      omega)

end Verif.Keys
