import Verif.Keys.HD

/-
C41: extended keys round-trip.
C42: public derivation matches private derivation, except where the code's reading of the
authentication code differs.
C43: derivation paths parse to the written indices; some texts are never finished with.
-/

namespace Verif.Keys
open Verif Verif.Text

/-! ### C41 -/

theorem be4_length (x : BitVec 32) : (be4 x).length = 4 := by simp [be4]

theorem ofBe4_be4 (x : BitVec 32) : ofBe4 (be4 x) = x := by
  unfold ofBe4 be4
  rw [List.reverse_reverse, leNat_leBytes 4 x.toNat (by have := x.isLt; omega)]
  simp

theorem drop_append_eq {α : Type} {n : Nat} (a b : List α) (h : a.length = n) : (a ++ b).drop n = b := by
  subst h; simp

theorem take_append_eq {α : Type} {n : Nat} (a b : List α) (h : a.length = n) : (a ++ b).take n = a := by
  subst h; simp

/-- The fields of a text, found where the readers look for them. -/
theorem view_fields (pre : Bytes) (k : HDKey) (tl : Bytes) (hp : pre.length = 3)
    (hc : k.chain.length = 32) :
    let view := pre ++ k.head ++ tl
    view.take 3 = pre ∧ (view.drop 3).headD 0 = k.depth ∧
    ofBe4 ((view.drop 4).take 4) = k.parent ∧ ofBe4 ((view.drop 8).take 4) = k.sequence ∧
    (view.drop 12).take 32 = k.chain ∧ view.drop 44 = tl ∧ view.length = 44 + tl.length := by
  have h4 : ∀ x : BitVec 32, (be4 x).length = 4 := be4_length
  refine ⟨?_, ?_, ?_, ?_, ?_, ?_, ?_⟩
  · show (pre ++ k.head ++ tl).take 3 = pre
    rw [List.append_assoc]; exact take_append_eq _ _ hp
  · show ((pre ++ k.head ++ tl).drop 3).headD 0 = k.depth
    rw [List.append_assoc, drop_append_eq _ _ hp]; simp [HDKey.head]
  · have : (pre ++ k.head ++ tl) = (pre ++ [k.depth]) ++ (be4 k.parent ++ (be4 k.sequence ++ k.chain ++ tl)) := by
      simp [HDKey.head]
    show ofBe4 (((pre ++ k.head ++ tl).drop 4).take 4) = k.parent
    rw [this, drop_append_eq _ _ (by simp [hp]), take_append_eq _ _ (h4 _), ofBe4_be4]
  · have : (pre ++ k.head ++ tl) = (pre ++ [k.depth] ++ be4 k.parent) ++ (be4 k.sequence ++ (k.chain ++ tl)) := by
      simp [HDKey.head]
    show ofBe4 (((pre ++ k.head ++ tl).drop 8).take 4) = k.sequence
    rw [this, drop_append_eq _ _ (by simp [hp, h4]), take_append_eq _ _ (h4 _), ofBe4_be4]
  · have : (pre ++ k.head ++ tl) = (pre ++ [k.depth] ++ be4 k.parent ++ be4 k.sequence) ++ (k.chain ++ tl) := by
      simp [HDKey.head]
    show ((pre ++ k.head ++ tl).drop 12).take 32 = k.chain
    rw [this, drop_append_eq _ _ (by simp [hp, h4]), take_append_eq _ _ hc]
  · have : (pre ++ k.head ++ tl) = (pre ++ [k.depth] ++ be4 k.parent ++ be4 k.sequence ++ k.chain) ++ tl := by
      simp [HDKey.head]
    show (pre ++ k.head ++ tl).drop 44 = tl
    rw [this, drop_append_eq _ _ (by simp [hp, h4, hc])]
  · show (pre ++ k.head ++ tl).length = 44 + tl.length
    simp [HDKey.head, hp, h4, hc]; omega

/-- Reading a secret key's body, with any byte in front of the key. -/
theorem readSecret_write {H : Bytes → Bytes} (hH : ∀ b, (H b).length = 32) (k : HDKey) (z : UInt8)
    (hk : k.key.length = 32) (hc : k.chain.length = 32) (hn : k.net ≠ .invalid) :
    readSecret H (checkEncode H (0x04 :: ((if k.net = .main then [0x88, 0xAD, 0xE4] else [0x35, 0x83, 0x94])
      ++ k.head ++ ([z] ++ k.key)))) = k := by
  obtain ⟨key, chain, net, depth, parent, seq⟩ := k
  simp only at hk hc hn
  unfold readSecret
  rw [C36_check_round_trip hH]
  have hf := view_fields (if net = .main then [0x88, 0xAD, 0xE4] else [0x35, 0x83, 0x94])
    ⟨key, chain, net, depth, parent, seq⟩ ([z] ++ key) (by split <;> rfl) hc
  simp only at hf ⊢
  obtain ⟨h1, h2, h3, h4, h5, h6, h7⟩ := hf
  have h45 : ((if net = Net.main then [0x88, 0xAD, 0xE4] else [0x35, 0x83, 0x94]) ++
      HDKey.head ⟨key, chain, net, depth, parent, seq⟩ ++ ([z] ++ key)).drop 45 = key := by
    rw [show (45 : Nat) = 44 + 1 from rfl, ← List.drop_drop, h6]; rfl
  simp only [h1, h2, h3, h4, h5, h7, h45]
  rw [if_neg (by decide), if_neg (by simp [hk])]
  cases net
  · exact absurd rfl hn
  · simp
  · simp

/-- A secret extended key read from its own text is the same key. -/
theorem C41_secret {H : Bytes → Bytes} (hH : ∀ b, (H b).length = 32) (k : HDKey)
    (hk : k.key.length = 32) (hc : k.chain.length = 32) (hn : k.net ≠ .invalid) :
    readSecret H (k.writeSecret H) = k := by
  have := readSecret_write hH k 0 hk hc hn
  unfold HDKey.writeSecret
  simpa only [List.append_assoc] using this

/-- A public extended key (with a compressed key, as its validity check demands) read from
its own text is the same key. -/
theorem C41_pubkey {H : Bytes → Bytes} (hH : ∀ b, (H b).length = 32) (k : HDKey)
    (hk : k.key.length = 33) (hc : k.chain.length = 32) (hn : k.net ≠ .invalid) :
    readPubkey H (k.writePubkey H) = k := by
  obtain ⟨key, chain, net, depth, parent, seq⟩ := k
  simp only at hk hc hn
  unfold readPubkey HDKey.writePubkey
  rw [C36_check_round_trip hH]
  have hf := view_fields (if net = .main then [0x88, 0xB2, 0x1E] else [0x35, 0x87, 0xCF])
    ⟨key, chain, net, depth, parent, seq⟩ key (by split <;> rfl) hc
  simp only at hf ⊢
  obtain ⟨h1, h2, h3, h4, h5, h6, h7⟩ := hf
  simp only [h1, h2, h3, h4, h5, h6, h7]
  rw [if_neg (by decide), if_neg (by simp [hk])]
  cases net
  · exact absurd rfl hn
  · simp
  · simp

/-- Texts of secret keys are not unique: the byte before the key is not looked at. -/
theorem C41_secret_ambiguous {H : Bytes → Bytes} (hH : ∀ b, (H b).length = 32) (k : HDKey)
    (hk : k.key.length = 32) (hc : k.chain.length = 32) (hn : k.net ≠ .invalid) :
    ∃ s, s ≠ k.writeSecret H ∧ readSecret H s = k := by
  refine ⟨_, ?_, readSecret_write hH k 1 hk hc hn⟩
  intro h
  have := congrArg (checkDecode H) h
  unfold HDKey.writeSecret at this
  rw [C36_check_round_trip hH, C36_check_round_trip hH] at this
  have h2 := List.cons.inj this |>.2
  rw [List.append_assoc (_ ++ _)] at h2
  have h3 := List.append_cancel_left h2
  simp at h3

/-! ### C42 -/

section
attribute [local irreducible] order be32 beNat leNat Keys.toPublic

variable {P : Type} [AddCommGroup P]

/-- The left half of the authentication code for a child that is not hardened. -/
def leftHalf (L : Lib P) (F : Hashes) (sec : HDKey) (child : BitVec 32) : Bytes :=
  (F.mac sec.chain (Keys.toPublic L true sec.key ++ be4 child)).take 32

/-- The child derived in the usual case. -/
def usualChild (L : Lib P) (F : Hashes) (sec : HDKey) (child : BitVec 32) : HDKey :=
  ⟨be32 ((beNat (leftHalf L F sec child) + beNat sec.key) % order),
    (F.mac sec.chain (Keys.toPublic L true sec.key ++ be4 child)).drop 32, sec.net, sec.depth + 1,
    fingerprint (F.hash160 (Keys.toPublic L true sec.key)), child⟩

theorem deriveSecret_usual (L : Lib P) (F : Hashes) (sec : HDKey) (child : BitVec 32)
    (hc : hardened child = false) (h1 : beNat (leftHalf L F sec child) ≤ order)
    (h3 : (beNat (leftHalf L F sec child) + beNat sec.key) % order ≠ 0) (fuel : Nat) :
    deriveSecret L F sec (fuel + 1) child = some (usualChild L F sec child) := by
  unfold leftHalf at h1 h3
  unfold deriveSecret
  simp only [hc, Bool.false_eq_true, if_false]
  rw [if_neg (by omega), if_neg h3]
  rfl

/-- Deriving a child secret is as BIP 32 says: the authentication code, with the parent's chain
code as its key, is of the index in four big-endian bytes after a zero byte and the parent's secret
key, if the index is at least `2^31`, and otherwise after the parent's compressed public key.  The
child's secret key is the sum of its left half and the parent's, modulo the order, and its chain code
the right half. -/
theorem C42_bip32 (L : Lib P) (F : Hashes) (sec : HDKey) (child : BitVec 32) (data : Bytes)
    (hd : (2 ^ 31 ≤ child.toNat ∧ data = 0 :: sec.key) ∨
      (child.toNat < 2 ^ 31 ∧ data = Keys.toPublic L true sec.key)) (left right : Bytes) (hl : left.length = 32)
    (hm : F.mac sec.chain (data ++ be4 child) = left ++ right) (h1 : beNat left < order)
    (h3 : (beNat left + beNat sec.key) % order ≠ 0) (fuel : Nat) :
    ∃ s, deriveSecret L F sec (fuel + 1) child = some s ∧
      s.key = be32 ((beNat left + beNat sec.key) % order) ∧ s.chain = right ∧ s.net = sec.net ∧
      s.depth = sec.depth + 1 ∧ s.sequence = child ∧
      s.parent = ofBe4 ((F.hash160 (Keys.toPublic L true sec.key)).take 4) := by
  have hdata : (if hardened child = true then 0 :: sec.key else Keys.toPublic L true sec.key) = data := by
    unfold hardened
    rcases hd with ⟨h, e⟩ | ⟨h, e⟩
    · rw [if_pos (by simpa using h), e]
    · rw [if_neg (by simp; omega), e]
  have ht : (left ++ right).take 32 = left := by rw [← hl]; simp
  have hr : (left ++ right).drop 32 = right := by rw [← hl]; simp
  unfold deriveSecret
  simp only [hdata, hm, ht, hr]
  rw [if_neg (by omega), if_neg h3]
  exact ⟨_, rfl, rfl, rfl, rfl, rfl, rfl, rfl⟩

/-- For an index that is not hardened, deriving from the public key gives the public key
of the child secret, provided the left half of the authentication code is below the order
read in either direction and the sum is not zero.  Missing: the other cases, below. -/
theorem C42_agrees_partial (L : Lib P) (F : Hashes) (sec : HDKey) (child : BitVec 32)
    (hk : secretOk sec.key = true) (hc : hardened child = false)
    (h1 : beNat (leftHalf L F sec child) < order)
    (h2 : leNat (leftHalf L F sec child) ≤ order)
    (h3 : (beNat (leftHalf L F sec child) + beNat sec.key) % order ≠ 0) (fuel fuel' : Nat) :
    ∃ s, deriveSecret L F sec (fuel + 1) child = some s ∧
      derivePubkey L F (sec.toPublic L) (fuel' + 1) child = some (s.toPublic L) ∧
      s.sequence = child ∧ secretOk s.key = true ∧ s.depth = sec.depth + 1 := by
  refine ⟨usualChild L F sec child, deriveSecret_usual L F sec child hc (by omega) h3 fuel,
    ?_, rfl, ?_, rfl⟩
  · unfold leftHalf at h1 h2 h3
    unfold derivePubkey HDKey.toPublic usualChild leftHalf
    simp only [hc, Bool.false_eq_true, if_false]
    rw [if_neg (by omega), C40_tweak_partial L true sec.key _ hk, if_pos ⟨h1, by rwa [Nat.add_comm]⟩,
      Nat.add_comm (beNat sec.key)]
    simp only [Outcome.get]
  · exact secretOk_be32 (by omega) (Nat.mod_lt _ order_pos)

/-- Whatever the public derivation answers after moving on to a later index has a later
index, or is the default key. -/
theorem derivePubkey_sequence (L : Lib P) (F : Hashes) (pub : HDKey) (fuel : Nat) (child : BitVec 32)
    {r : HDKey} (h : derivePubkey L F pub fuel child = some r) :
    r = .noPubkey ∨ child.toNat ≤ r.sequence.toNat := by
  induction fuel generalizing child with
  | zero => simp [derivePubkey] at h
  | succ fuel ih =>
    unfold derivePubkey at h
    split at h
    · simp only [Option.some.injEq] at h; exact .inl h.symm
    rename_i hh
    simp only [hardened, decide_eq_true_eq, Nat.not_le] at hh
    simp only at h
    split at h
    · rcases ih _ h with h1 | h1
      · exact .inl h1
      · right
        have : (child + 1).toNat = child.toNat + 1 := by
          rw [BitVec.toNat_add]
          have := child.isLt
          simp; omega
        omega
    · simp only [Option.some.injEq] at h
      subst h
      exact .inr (Nat.le_refl _)

/-- When the left half is below the order read as the standard says, but above it read in
the other direction, the public derivation moves on to the next index and the private one
does not: the two never agree. -/
theorem C42_mismatch (L : Lib P) (F : Hashes) (sec : HDKey) (child : BitVec 32)
    (hc : hardened child = false)
    (h1 : beNat (leftHalf L F sec child) ≤ order)
    (h2 : leNat (leftHalf L F sec child) > order)
    (h3 : (beNat (leftHalf L F sec child) + beNat sec.key) % order ≠ 0) (fuel fuel' : Nat) :
    ∃ s, deriveSecret L F sec (fuel + 1) child = some s ∧
      derivePubkey L F (sec.toPublic L) fuel' child ≠ some (s.toPublic L) := by
  refine ⟨usualChild L F sec child, deriveSecret_usual L F sec child hc h1 h3 fuel, ?_⟩
  · intro h
    cases fuel' with
    | zero => simp [derivePubkey] at h
    | succ f =>
      unfold derivePubkey at h
      simp only [hc, Bool.false_eq_true, if_false] at h
      rw [if_pos (by simpa [HDKey.toPublic, leftHalf] using h2)] at h
      rcases derivePubkey_sequence L F _ _ _ h with h4 | h4
      · have h5 := congrArg HDKey.key h4
        simp only [HDKey.toPublic, HDKey.noPubkey, usualChild] at h5
        rw [toPublic_ok L true (secretOk_be32 (by omega) (Nat.mod_lt _ order_pos))] at h5
        have := L.enc_length true (beNat (be32 ((beNat (leftHalf L F sec child) +
          beNat sec.key) % order)) • L.G)
        rw [h5] at this
        simp at this
      · simp only [HDKey.toPublic, usualChild] at h4
        simp only [hardened, decide_eq_false_iff_not, Nat.not_le] at hc
        have : (child + 1).toNat = child.toNat + 1 := by
          rw [BitVec.toNat_add]
          simp; omega
        omega

/-- When the left half is above the order read in either direction both move on to the
next index. -/
theorem C42_both_skip (L : Lib P) (F : Hashes) (sec : HDKey) (child : BitVec 32)
    (hc : hardened child = false)
    (h1 : beNat (leftHalf L F sec child) > order)
    (h2 : leNat (leftHalf L F sec child) > order) (fuel fuel' : Nat) :
    deriveSecret L F sec (fuel + 1) child = deriveSecret L F sec fuel (child + 1) ∧
    derivePubkey L F (sec.toPublic L) (fuel' + 1) child =
      derivePubkey L F (sec.toPublic L) fuel' (child + 1) := by
  unfold leftHalf at h1 h2
  constructor
  · conv => lhs; unfold deriveSecret
    simp only [hc, Bool.false_eq_true, if_false]
    rw [if_pos h1]
  · conv => lhs; unfold derivePubkey
    simp only [hc, Bool.false_eq_true, if_false]
    rw [if_pos (by simpa [HDKey.toPublic] using h2)]

/-- Hardened children cannot be derived from a public key. -/
theorem C42_hardened (L : Lib P) (F : Hashes) (pub : HDKey) (child : BitVec 32)
    (hc : hardened child = true) (fuel : Nat) :
    derivePubkey L F pub (fuel + 1) child = some .noPubkey := by
  unfold derivePubkey; rw [if_pos hc]

/-- Along a path: schema/hd.hpp 143-151. -/
def deriveSecretPath (L : Lib P) (F : Hashes) (fuel : Nat) (k : HDKey) : List (BitVec 32) → Option HDKey
  | [] => some k
  | c :: cs => (deriveSecret L F k fuel c).bind fun k' => deriveSecretPath L F fuel k' cs

/-- Along a path: schema/hd.hpp 143-151. -/
noncomputable def derivePubkeyPath (L : Lib P) (F : Hashes) (fuel : Nat) (k : HDKey) :
    List (BitVec 32) → Option HDKey
  | [] => some k
  | c :: cs => (derivePubkey L F k fuel c).bind fun k' => derivePubkeyPath L F fuel k' cs

/-- The usual case at every step of a path. -/
inductive Usual (L : Lib P) (F : Hashes) : HDKey → List (BitVec 32) → Prop
  | nil (k) (hk : secretOk k.key = true) : Usual L F k []
  | cons (k : HDKey) (c : BitVec 32) (cs) (hk : secretOk k.key = true) (hc : hardened c = false)
      (h1 : beNat (leftHalf L F k c) < order) (h2 : leNat (leftHalf L F k c) ≤ order)
      (h3 : (beNat (leftHalf L F k c) + beNat k.key) % order ≠ 0)
      (next : ∀ s, deriveSecret L F k 1 c = some s → Usual L F s cs) : Usual L F k (c :: cs)

/-- Deriving along a path of indices that are not hardened commutes with taking the public
key.  Missing: as above, steps outside the usual case. -/
theorem C42_path_partial (L : Lib P) (F : Hashes) (k : HDKey) (path : List (BitVec 32))
    (h : Usual L F k path) (fuel : Nat) :
    ∃ s, deriveSecretPath L F (fuel + 1) k path = some s ∧
      derivePubkeyPath L F (fuel + 1) (k.toPublic L) path = some (s.toPublic L) := by
  induction h with
  | nil k hk => exact ⟨k, rfl, rfl⟩
  | cons k c cs hk hc h1 h2 h3 next ih =>
    obtain ⟨s, hs, hp, _⟩ := C42_agrees_partial L F k c hk hc h1 h2 h3 fuel fuel
    have hs1 := deriveSecret_usual L F k c hc (by omega) h3 0
    rw [deriveSecret_usual L F k c hc (by omega) h3 fuel] at hs
    obtain rfl := Option.some.inj hs
    obtain ⟨t, ht, htp⟩ := ih _ hs1
    have hs' := deriveSecret_usual L F k c hc (by omega) h3 fuel
    exact ⟨t, by simp [deriveSecretPath, hs', ht], by simp [derivePubkeyPath, hp, htp]⟩

end

/-! ### C43 -/

/-- The value of decimal digits. -/
def decimal (ds : List Char) : Nat := ds.foldl (fun a c => a * 10 + (c.toNat - '0'.toNat)) 0

/-- The text of a number. -/
def IsDecimal (ds : List Char) (n : Nat) : Prop :=
  ds ≠ [] ∧ (∀ c ∈ ds, '0' ≤ c ∧ c ≤ '9') ∧ decimal ds = n

instance (ds : List Char) (n : Nat) : Decidable (IsDecimal ds n) := by
  unfold IsDecimal; infer_instance

/-- The standard text of a path without its leading `m/`: numbers below 2^31 in decimal,
an apostrophe after the hardened ones, separated by slashes.  `idx` are the indices. -/
inductive PathText : List Char → List Nat → Prop
  | last (ds n) (h : IsDecimal ds n) (hn : n < 0x80000000) : PathText ds [n]
  | lastHard (ds n) (h : IsDecimal ds n) (hn : n < 0x80000000) :
      PathText (ds ++ ['\'']) [n + 0x80000000]
  | cons (ds n t idx) (h : IsDecimal ds n) (hn : n < 0x80000000) (ht : PathText t idx) :
      PathText (ds ++ '/' :: t) (n :: idx)
  | consHard (ds n t idx) (h : IsDecimal ds n) (hn : n < 0x80000000) (ht : PathText t idx) :
      PathText (ds ++ '\'' :: '/' :: t) ((n + 0x80000000) :: idx)

theorem foldl_mono (ds : List Char) (a : Nat) :
    a ≤ ds.foldl (fun a c => a * 10 + (c.toNat - '0'.toNat)) a := by
  induction ds generalizing a with
  | nil => exact Nat.le_refl _
  | cons c ds ih =>
    rw [List.foldl_cons]
    have := ih (a * 10 + (c.toNat - '0'.toNat))
    omega

theorem decimal_eq (ds : List Char) :
    ds.foldl (fun a c => a * 10 + (c.toNat - '0'.toNat)) 0 = decimal ds := rfl

/-- Going over digits that are followed by something. -/
theorem pathLoop_digits (ds : List Char) (hd : ∀ c ∈ ds, '0' ≤ c ∧ c ≤ '9') (t : List Char)
    (ht : t ≠ []) (n : Nat) (acc : List Nat)
    (hn : ds.foldl (fun a c => a * 10 + (c.toNat - '0'.toNat)) n < 0x80000000) (fuel : Nat) :
    pathLoop (ds.length + fuel) ⟨ds ++ t, n, acc⟩ =
      pathLoop fuel ⟨t, ds.foldl (fun a c => a * 10 + (c.toNat - '0'.toNat)) n, acc⟩ := by
  induction ds generalizing n with
  | nil => simp
  | cons c ds ih =>
    have hb := foldl_mono ds (n * 10 + (c.toNat - '0'.toNat))
    rw [List.foldl_cons] at hn
    rw [List.length_cons, show ds.length + 1 + fuel = (ds.length + fuel) + 1 by omega]
    have hstep : pathStep ⟨c :: ds ++ t, n, acc⟩ =
        .inr ⟨ds ++ t, n * 10 + (c.toNat - '0'.toNat), acc⟩ := by
      simp only [pathStep, List.cons_append]
      rw [if_pos (hd c (by simp)), if_neg (by omega), if_neg (by simp [ht])]
    rw [pathLoop, hstep]
    simp only
    rw [ih (fun c hc => hd c (by simp [hc])) _ hn, List.foldl_cons]

/-- Going over digits that end the text. -/
theorem pathLoop_last (ds : List Char) (hd : ∀ c ∈ ds, '0' ≤ c ∧ c ≤ '9') (hne : ds ≠ [])
    (n : Nat) (acc : List Nat)
    (hn : ds.foldl (fun a c => a * 10 + (c.toNat - '0'.toNat)) n < 0x80000000) (fuel : Nat) :
    pathLoop (ds.length + (fuel + 1)) ⟨ds, n, acc⟩ =
      some (acc ++ [ds.foldl (fun a c => a * 10 + (c.toNat - '0'.toNat)) n]) := by
  obtain ⟨init, c, rfl⟩ : ∃ init c, ds = init ++ [c] :=
    ⟨ds.dropLast, ds.getLast hne, (List.dropLast_append_getLast hne).symm⟩
  have hmono : init.foldl (fun a c => a * 10 + (c.toNat - '0'.toNat)) n < 0x80000000 := by
    rw [List.foldl_append] at hn
    simp only [List.foldl_cons, List.foldl_nil] at hn
    omega
  rw [List.length_append, show init.length + [c].length + (fuel + 1) = init.length + (fuel + 2) by
    simp; omega, pathLoop_digits init (fun x hx => hd x (by simp [hx])) [c] (by simp) n acc hmono]
  rw [List.foldl_append] at hn ⊢
  simp only [List.foldl_cons, List.foldl_nil] at hn ⊢
  generalize init.foldl (fun a c => a * 10 + (c.toNat - '0'.toNat)) n = m at *
  have hstep : pathStep ⟨[c], m, acc⟩ =
      .inr ⟨[], m * 10 + (c.toNat - '0'.toNat), acc ++ [m * 10 + (c.toNat - '0'.toNat)]⟩ := by
    simp only [pathStep]
    rw [if_pos (hd c (by simp)), if_neg (by omega), if_pos trivial]
  rw [pathLoop, hstep]
  rfl

theorem lor_hard {n : Nat} (h : n < 0x80000000) : n ||| 0x80000000 = n + 0x80000000 := by
  have := Nat.two_pow_add_eq_or_of_lt (i := 31) (b := n) h 1
  rw [Nat.or_comm] at this
  simp at this
  omega

theorem PathText.head {t : List Char} {idx : List Nat} (h : PathText t idx) :
    ∃ c cs, t = c :: cs ∧ '0' ≤ c ∧ c ≤ '9' := by
  have key : ∀ ds n (u : List Char), IsDecimal ds n → ∃ c cs, ds ++ u = c :: cs ∧ '0' ≤ c ∧ c ≤ '9' := by
    intro ds n u hd
    cases ds with
    | nil => exact absurd rfl hd.1
    | cons c cs => exact ⟨c, cs ++ u, rfl, hd.2.1 c (by simp)⟩
  cases h with
  | last ds n h hn => simpa using key _ n [] h
  | lastHard ds n h hn => exact key ds n _ h
  | cons ds n t idx h hn ht => exact key ds n _ h
  | consHard ds n t idx h hn ht => exact key ds n _ h

theorem apostrophe_step (t : List Char) (n : Nat) (hn : n < 0x80000000) (acc : List Nat) :
    pathStep ⟨'\'' :: t, n, acc⟩ = .inr ⟨t.drop 1, 0, acc ++ [n + 0x80000000]⟩ := by
  simp only [pathStep]
  rw [if_neg (by decide), if_pos trivial, lor_hard hn]

theorem slash_step (t : List Char) (n : Nat) (acc : List Nat) (c : Char) (cs : List Char)
    (ht : t = c :: cs) (hc : '0' ≤ c ∧ c ≤ '9') :
    pathStep ⟨'/' :: t, n, acc⟩ = .inr ⟨t, 0, acc ++ [n]⟩ := by
  simp only [pathStep]
  rw [if_neg (by decide), if_neg (by decide), if_pos trivial, if_neg]
  subst ht
  simp only [List.headD_cons, reduceCtorEq, false_or, not_or]
  exact ⟨Char.not_lt.mpr hc.1, Char.not_lt.mpr hc.2⟩

theorem pathLoop_standard {t : List Char} {idx : List Nat} (h : PathText t idx) (acc : List Nat)
    (fuel : Nat) : pathLoop (t.length + (fuel + 1)) ⟨t, 0, acc⟩ = some (acc ++ idx) := by
  induction h generalizing acc fuel with
  | last ds n h hn =>
    obtain ⟨hne, hd, rfl⟩ := h
    exact pathLoop_last ds hd hne 0 acc hn fuel
  | lastHard ds n h hn =>
    obtain ⟨hne, hd, rfl⟩ := h
    rw [List.length_append, show ds.length + ['\''].length + (fuel + 1) = ds.length + (fuel + 2) by
      simp; omega, pathLoop_digits ds hd _ (by simp) 0 acc hn, decimal_eq, pathLoop, apostrophe_step _ _ hn]
    rfl
  | cons ds n t idx h hn ht ih =>
    obtain ⟨hne, hd, rfl⟩ := h
    obtain ⟨c, cs, hcs, hc⟩ := ht.head
    rw [List.length_append, show ds.length + ('/' :: t).length + (fuel + 1) =
      ds.length + ((t.length + (fuel + 1)) + 1) by simp; omega,
      pathLoop_digits ds hd _ (by simp) 0 acc hn, decimal_eq, pathLoop, slash_step t _ _ c cs hcs hc]
    simp only
    rw [ih]
    simp
  | consHard ds n t idx h hn ht ih =>
    obtain ⟨hne, hd, rfl⟩ := h
    rw [List.length_append, show ds.length + ('\'' :: '/' :: t).length + (fuel + 1) =
      ds.length + ((t.length + (fuel + 1 + 1)) + 1) by simp; omega,
      pathLoop_digits ds hd _ (by simp) 0 acc hn, decimal_eq, pathLoop, apostrophe_step _ _ hn]
    simp only [List.drop_succ_cons, List.drop_zero]
    rw [ih]
    simp

/-- Parsing the standard text of a path, without the leading `m/`, returns its indices with
the hardened ones marked.  Missing: the leading `m/`, and refusing malformed text. -/
theorem C43_standard_partial (t : List Char) (idx : List Nat) (h : PathText t idx) (fuel : Nat)
    (hf : t.length < fuel) : readPath fuel t = some idx := by
  obtain ⟨k, rfl⟩ : ∃ k, fuel = t.length + (k + 1) := ⟨fuel - t.length - 1, by omega⟩
  unfold readPath
  rw [pathLoop_standard h]; rfl

/-- Once at a character that is not a digit, an apostrophe or a slash, parsing never ends. -/
theorem C43_hangs (c : Char) (cs : List Char) (hd : ¬('0' ≤ c ∧ c ≤ '9')) (ha : c ≠ '\'') (hs : c ≠ '/')
    (fuel : Nat) : readPath fuel (c :: cs) = none := by
  unfold readPath
  induction fuel with
  | zero => rfl
  | succ f ih =>
    rw [pathLoop]
    have : pathStep ⟨c :: cs, 0, []⟩ = .inr ⟨c :: cs, 0, []⟩ := by
      simp only [pathStep]
      rw [if_neg hd, if_neg ha, if_neg hs]
    rw [this]
    exact ih

/-- In particular for the standard text of every path, which begins with `m/`. -/
theorem C43_m_hangs (t : List Char) (fuel : Nat) : readPath fuel ('m' :: '/' :: t) = none :=
  C43_hangs 'm' _ (by decide) (by decide) (by decide) fuel

/-- For any other text parsing ends. -/
theorem C43_terminates_partial (t : List Char)
    (h : ∀ c ∈ t, ('0' ≤ c ∧ c ≤ '9') ∨ c = '\'' ∨ c = '/') (fuel : Nat) (hf : t.length < fuel) :
    readPath fuel t ≠ none := by
  unfold readPath
  generalize 0 = n
  generalize [] = acc
  induction fuel generalizing t n acc with
  | zero => omega
  | succ f ih =>
    rw [pathLoop]
    cases t with
    | nil => simp [pathStep]
    | cons c cs =>
      simp only [List.length_cons] at hf
      have hcs : ∀ x ∈ cs, ('0' ≤ x ∧ x ≤ '9') ∨ x = '\'' ∨ x = '/' := fun x hx => h x (by simp [hx])
      simp only [pathStep]
      by_cases hd : '0' ≤ c ∧ c ≤ '9'
      · rw [if_pos hd]
        split
        · rename_i h1; split at h1 <;> simp at h1 ⊢
        · rename_i s' h1
          split at h1
          · simp at h1
          · simp only [Sum.inr.injEq] at h1
            subst h1
            exact ih cs hcs (by omega) _ _
      · rw [if_neg hd]
        rcases h c (by simp) with h1 | rfl | rfl
        · exact absurd h1 hd
        · rw [if_pos rfl]
          exact ih (cs.drop 1) (fun x hx => hcs x (List.mem_of_mem_drop hx))
            (by rw [List.length_drop]; omega) _ _
        · rw [if_neg (by decide), if_pos rfl]
          split
          · simp
          · rename_i s' h1
            split at h1
            · simp at h1
            · simp only [Sum.inr.injEq] at h1
              subst h1
              exact ih cs hcs (by omega) _ _

/-- Malformed texts that are accepted: a character after an apostrophe is not looked at, a
leading slash and a lone apostrophe stand for a zero. -/
theorem C43_malformed_accepted :
    readPath 9 "1'2".toList = some [0x80000001] ∧ readPath 9 "/5".toList = some [0, 5] ∧
    readPath 9 "'".toList = some [0x80000000] := by decide

/-- A number that is too large gives the empty path, and so the key itself. -/
theorem C43_too_large : readPath 20 "2147483648".toList = some [] := by decide

/-! ### Cases -/

example : PathText "0/17'/3".toList [0, 17 + 0x80000000, 3] :=
  .cons ['0'] 0 _ _ (by decide) (by decide)
    (.consHard ['1', '7'] 17 _ _ (by decide) (by decide) (.last ['3'] 3 (by decide) (by decide)))

/-- A stand-in for the external functions. -/
def exampleHashes : Hashes where
  mac _ d := List.replicate 31 0 ++ [UInt8.ofNat (d.length + 1)] ++ List.replicate 32 7
  hash160 _ := List.replicate 20 1

/-- A key and an index meeting the hypotheses of `C42_agrees_partial`. -/
example :
    let sec : HDKey := ⟨be32 5, List.replicate 32 9, .main, 0, 0, 0⟩
    secretOk sec.key = true ∧ hardened 3 = false ∧
    beNat (leftHalf exampleLib exampleHashes sec 3) < order ∧
    leNat (leftHalf exampleLib exampleHashes sec 3) ≤ order ∧
    (beNat (leftHalf exampleLib exampleHashes sec 3) + beNat sec.key) % order ≠ 0 := by
  have hl : ∀ d : Bytes, d.length = 37 → (exampleHashes.mac (List.replicate 32 9) d).take 32 =
      List.replicate 31 0 ++ [38] := by
    intro d hd; simp [exampleHashes, hd]
  have h := hl (toPublic exampleLib true (be32 5) ++ be4 3) (by
    rw [List.length_append, toPublic_ok _ _ (by decide), exampleLib.enc_length]; rfl)
  simp only [leftHalf, h]
  decide

/-- A stand-in with which the two derivations disagree. -/
def badHashes : Hashes where
  mac _ _ := 0 :: List.replicate 63 255
  hash160 _ := List.replicate 20 1

example :
    let sec : HDKey := ⟨be32 5, List.replicate 32 9, .main, 0, 0, 0⟩
    beNat (leftHalf exampleLib badHashes sec 3) ≤ order ∧
    leNat (leftHalf exampleLib badHashes sec 3) > order ∧
    (beNat (leftHalf exampleLib badHashes sec 3) + beNat sec.key) % order ≠ 0 := by
  simp only [leftHalf, badHashes]
  decide

end Verif.Keys
