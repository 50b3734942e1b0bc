import Verif.Stratum.MiningLemmas
import Verif.Stratum.MessageProps

/-
Properties C59 and C60: work notifications and shares, read from their own JSON form and from any other.
-/

namespace Verif.Stratum

open Verif.Net Verif.Text

namespace Spec

/-- The bytes of a number are the same backward. -/
def Backward (v : BitVec 32) : Prop := (wfix 4 v).reverse = wfix 4 v

/-- In each of the eight groups of four bytes of a digest the bytes are all the same. -/
def Even (d : BitVec 256) : Prop := ∀ i < 32, (wfix 32 d)[i]? = (wfix 32 d)[4 * (i / 4)]?

/-- The text is the eight digits of the number, greatest first, in upper or lower case. -/
def IsHex32 (t : List Char) (x : BitVec 32) : Prop := hexRead t = some (wfix 4 x).reverse

/-- The values are those of a share: name, job, extra nonce, time, nonce and perhaps version bits. -/
def IsShare (p : List Json) (s : Share) : Prop :=
  ∃ t2 t3 t4, hexRead t2 = some s.extraNonce2 ∧ IsHex32 t3 s.timestamp ∧ IsHex32 t4 s.nonce ∧
    match s.bits with
    | none => p = [.str s.name, .str s.jobId, .str t2, .str t3, .str t4]
    | some b => ∃ t5, IsHex32 t5 b ∧ p = [.str s.name, .str s.jobId, .str t2, .str t3, .str t4, .str t5]

end Spec

theorem rotated_fixed : ∀ b : Bytes, reverseFour (reverseThree b) = b ↔ ∀ i < b.length / 4 * 4, b[i]? = b[4 * (i / 4)]?
  | a :: b :: c :: d :: l => by
    have ih := rotated_fixed l
    simp only [reverseThree, reverseFour, List.cons.injEq, List.length_cons, ih]
    constructor
    · rintro ⟨h1, h2, h3, -, h5⟩ i hi
      match i, hi with
      | 0, _ => rfl
      | 1, _ => simp [← h2]
      | 2, _ => simp [← h3, h2]
      | 3, _ => simp [h1]
      | i + 4, hi =>
        have e : (i + 4) / 4 = i / 4 + 1 := by omega
        rw [e]
        have := h5 i (by omega)
        rw [Nat.mul_add]
        simpa using this
    · intro h
      have h1 := h 1 (by omega)
      have h2 := h 2 (by omega)
      have h3 := h 3 (by omega)
      simp only [List.getElem?_cons_succ, List.getElem?_cons_zero, show 4 * (1 / 4) = 0 from rfl,
        Option.some.injEq] at h1 h2 h3
      subst h1 h2 h3
      refine ⟨rfl, rfl, rfl, rfl, fun i hi => ?_⟩
      have := h (i + 4) (by omega)
      have e : (i + 4) / 4 = i / 4 + 1 := by omega
      rw [e, Nat.mul_add] at this
      simpa using this
  | [] => by simp [reverseThree, reverseFour]
  | [_] => by simp [reverseThree, reverseFour]
  | [_, _] => by simp [reverseThree, reverseFour]
  | [_, _, _] => by simp [reverseThree, reverseFour]

theorem digest_fixed (d : BitVec 256) : little 256 (reverseFour (reverseThree (wfix 32 d))) = d ↔ Spec.Even d := by
  have h := rotated_fixed (wfix 32 d)
  have hl : (wfix 32 d).length / 4 * 4 = 32 := by rw [wfix_length]
  rw [hl] at h
  unfold Spec.Even
  rw [← h]
  constructor
  · intro e
    have := congrArg (wfix 32) e
    rwa [wfix_little (by decide) (by rw [reverseFour_length, reverseThree_length, wfix_length])] at this
  · intro e
    rw [e]
    exact little_wfix (by decide) d

theorem version_fixed (v : BitVec 32) : big 32 (wfix 4 v) = v ↔ Spec.Backward v := by
  unfold Spec.Backward big
  constructor
  · intro e
    have := congrArg (wfix 4) e
    rwa [wfix_little (by decide) (by simp)] at this
  · intro e
    rw [e]
    exact little_wfix (by decide) v

theorem notify_round (n : Notify) (hp : n.path = []) :
    ∃ l, n.serialize = .ok l ∧ Notify.deserialize l =
      some { n with digest := little 256 (reverseFour (reverseThree (wfix 32 n.digest))), version := big 32 (wfix 4 n.version) } := by
  refine ⟨_, by unfold Notify.serialize writeDigests; rw [hp]; rfl, ?_⟩
  unfold Notify.deserialize Notify.read
  simp only [readJobId, readDigest_write, readBytes_write, readInt32_write, readInt32_big, Read.andThen, readDigests,
    readDigestsFrom, Read.orDefault]
  cases n
  simp_all

/-- **C59** A notification without a path, read from its own JSON form, has the same job, coinbase parts, path, target, time and
clean flag; its version is the number with the same bytes in the opposite order.  Missing: the same previous digest and version,
and notifications with paths, which cannot be written. -/
theorem C59_reads_partial (n : Notify) (hp : n.path = []) :
    ∃ l r, n.serialize = .ok l ∧ Notify.deserialize l = some r ∧ r.jobId = n.jobId ∧ r.generation1 = n.generation1 ∧
      r.generation2 = n.generation2 ∧ r.path = n.path ∧ r.target = n.target ∧ r.now = n.now ∧ r.clean = n.clean ∧
      wfix 4 r.version = (wfix 4 n.version).reverse := by
  obtain ⟨l, h1, h2⟩ := notify_round n hp
  exact ⟨l, _, h1, h2, rfl, rfl, rfl, rfl, rfl, rfl, rfl, wfix_little (by decide) (by simp)⟩

/-- **C59** A notification is read back as it was exactly if it has no path, the bytes of its version are the same backward, and in
every four bytes of the previous digest there is only one. -/
theorem C59_exact (n : Notify) :
    (∃ l, n.serialize = .ok l ∧ Notify.deserialize l = some n) ↔ n.path = [] ∧ Spec.Backward n.version ∧ Spec.Even n.digest := by
  constructor
  · rintro ⟨l, h1, h2⟩
    have hp : n.path = [] := by
      cases e : n.path with
      | nil => rfl
      | cons d p =>
        unfold Notify.serialize writeDigests at h1
        rw [e] at h1
        simp [Read.andThen] at h1
    obtain ⟨l', h1', h2'⟩ := notify_round n hp
    rw [h1] at h1'
    obtain rfl : l = l' := by simpa using h1'
    rw [h2] at h2'
    simp only [Option.some.injEq] at h2'
    refine ⟨hp, (version_fixed _).1 ?_, (digest_fixed _).1 ?_⟩
    · exact (congrArg Notify.version h2').symm
    · exact (congrArg Notify.digest h2').symm
  · rintro ⟨hp, hv, hd⟩
    obtain ⟨l, h1, h2⟩ := notify_round n hp
    refine ⟨l, h1, ?_⟩
    rw [h2, (digest_fixed _).2 hd, (version_fixed _).2 hv]

/-- A notification that does survive: the digest is all the same byte, the version is zero. -/
example : ∃ l, Notify.serialize { jobId := "bf".toList, digest := 0x1111111111111111111111111111111111111111111111111111111111111111, target := 0x1c2ac4af, now := 0x504e86b9 } = .ok l ∧ Notify.deserialize l = some { jobId := "bf".toList, digest := 0x1111111111111111111111111111111111111111111111111111111111111111, target := 0x1c2ac4af, now := 0x504e86b9 } :=
  (C59_exact _).2 ⟨rfl, by unfold Spec.Backward; decide +kernel, by
    have : ∀ i : Fin 32, (wfix 32 (0x1111111111111111111111111111111111111111111111111111111111111111 : BitVec 256))[i.val]? = (wfix 32 (0x1111111111111111111111111111111111111111111111111111111111111111 : BitVec 256))[4 * (i.val / 4)]? := by decide +kernel
    exact fun i hi => this ⟨i, hi⟩⟩

/-- **C59, false as stated** A notification with a path cannot be written: the first of an empty list is asked for. -/
theorem C59_false_path (n : Notify) (h : n.path ≠ []) : n.serialize = .ub := by
  unfold Notify.serialize writeDigests
  cases e : n.path with
  | nil => exact absurd e h
  | cons d p => rfl

/-- **C59, false as stated** A notification with version 2 is read back with version 0x02000000. -/
theorem C59_false_version : ∃ l, Notify.serialize { version := 2 } = .ok l ∧
    (Notify.deserialize l).map (·.version) = some 0x02000000 := by
  obtain ⟨l, h1, h2⟩ := notify_round { version := 2 } rfl
  refine ⟨l, h1, ?_⟩
  rw [h2]
  decide +kernel

/-- **C59, false as stated** A notification with previous digest 1 is read back with another. -/
theorem C59_false_digest : ∃ l, Notify.serialize { digest := 1 } = .ok l ∧
    (Notify.deserialize l).map (·.digest) = some 256 := by
  obtain ⟨l, h1, h2⟩ := notify_round { digest := 1 } rfl
  refine ⟨l, h1, ?_⟩
  rw [h2]
  decide +kernel

theorem readDigestsFrom_ok (x : List (BitVec 256)) : ∀ (l : List Json) (ds : List (BitVec 256)),
    l.map readDigest = ds.map Read.ok → readDigestsFrom x l = .ok (ds.reverse ++ x)
  | [], ds, h => by
    cases ds with
    | nil => rfl
    | cons d ds => simp at h
  | j :: l, ds, h => by
    cases ds with
    | nil => simp at h
    | cons d ds =>
      simp only [List.map_cons, List.cons.injEq] at h
      unfold readDigestsFrom
      rw [h.1]
      simp only [Read.andThen]
      rw [readDigestsFrom_ok (d :: x) l ds h.2]
      simp

/-- **C59, false as stated** The digests of a path are read in the opposite order to that in which they are in the message. -/
theorem C59_false_order (l : List Json) (ds : List (BitVec 256)) (h : l.map readDigest = ds.map Read.ok) :
    readDigests (.arr l) = .ok ds.reverse := by
  have := readDigestsFrom_ok [] l ds h
  rwa [List.append_nil] at this

example : readDigests (.arr [.str (List.replicate 64 '1'), .str (List.replicate 64 '2')]) =
    .ok [0x2222222222222222222222222222222222222222222222222222222222222222, 0x1111111111111111111111111111111111111111111111111111111111111111] :=
  C59_false_order _ [0x1111111111111111111111111111111111111111111111111111111111111111, 0x2222222222222222222222222222222222222222222222222222222222222222]
    (by decide +kernel)

/-- **C59, false as stated** Of the message that the library makes of a notification nothing is read back: neither a method nor
parameters. -/
theorem C59_false_message (p : List Json) :
    methodOf (makeNotification .notify p) = .unset ∧
      Notify.deserialize (paramsOf (makeNotification .notify p)) = some {} := ⟨rfl, rfl⟩

/-- **C59**, what is read as a digest: 64 hexadecimal digits, and nothing else. -/
theorem C59_digest_iff (j : Json) : (∃ d, readDigest j = .ok d) ↔ ∃ s, j = .str s ∧ s.length = 64 ∧ (hexRead s).isSome := by
  unfold readDigest
  constructor
  · rintro ⟨d, h⟩
    split at h
    · rename_i s
      split at h
      · rename_i hl
        split at h
        · rename_i b hb
          exact ⟨s, rfl, hl, by simp [hb]⟩
        · cases h
      · cases h
    · cases h
  · rintro ⟨s, rfl, hl, hb⟩
    obtain ⟨b, hb⟩ := Option.isSome_iff_exists.mp hb
    simp only [hl, if_true, hb]
    exact ⟨_, rfl⟩

-- 64 digits are read, 66 are not
example : (∃ d, readDigest (.str (List.replicate 64 'a')) = .ok d) ∧ ¬ ∃ d, readDigest (.str (List.replicate 66 'a')) = .ok d := by
  rw [C59_digest_iff, C59_digest_iff]
  constructor
  · exact ⟨_, rfl, by simp, by decide +kernel⟩
  · rintro ⟨s, h, hl, _⟩
    injection h with h
    rw [← h] at hl
    simp at hl

theorem readDigest_ne_ub (j : Json) : readDigest j ≠ .ub := by
  unfold readDigest
  split
  · split
    · split <;> simp
    · simp
  · simp

theorem readDigestsFrom_ne_ub (x : List (BitVec 256)) : ∀ l, readDigestsFrom x l ≠ .ub
  | [] => by simp [readDigestsFrom]
  | j :: l => by
    unfold readDigestsFrom
    cases e : readDigest j with
    | ok d => exact readDigestsFrom_ne_ub (d :: x) l
    | refused => simp [Read.andThen]
    | ub => exact absurd e (readDigest_ne_ub j)

theorem andThen_ne_ub {r : Read α} {f : α → Read β} (h : r ≠ .ub) (hf : ∀ a, f a ≠ .ub) : r.andThen f ≠ .ub := by
  cases r with
  | ok a => exact hf a
  | refused => simp [Read.andThen]
  | ub => exact absurd rfl h

theorem readJobId_ne_ub (j : Json) : readJobId j ≠ .ub := by
  unfold readJobId
  split <;> simp

theorem readBytes_ne_ub (j : Json) : readBytes j ≠ .ub := by
  unfold readBytes
  split
  · split <;> simp
  · simp

theorem readInt32_ne_ub (j : Json) : readInt32 j ≠ .ub := by
  unfold readInt32
  split
  · split
    · split <;> simp
    · simp
  · simp

/-- **C59** Reading a notification from any list of values has a defined result. -/
theorem C59_defined (p : List Json) : ∃ n, Notify.deserialize p = some n := by
  have h : Notify.read p ≠ .ub := by
    unfold Notify.read
    split
    · refine andThen_ne_ub (readJobId_ne_ub _) fun _ => andThen_ne_ub (readDigest_ne_ub _) fun _ =>
        andThen_ne_ub (readBytes_ne_ub _) fun _ => andThen_ne_ub (readBytes_ne_ub _) fun _ => andThen_ne_ub ?_ fun _ =>
        andThen_ne_ub (readInt32_ne_ub _) fun _ => andThen_ne_ub (readInt32_ne_ub _) fun _ =>
        andThen_ne_ub (readInt32_ne_ub _) fun _ => by simp
      unfold readDigests
      split
      · exact readDigestsFrom_ne_ub _ _
      · simp
    · simp
  unfold Notify.deserialize
  cases e : Notify.read p with
  | ok a => exact ⟨a, rfl⟩
  | refused => exact ⟨default, rfl⟩
  | ub => exact absurd e h

/-! Shares. -/

theorem share_round (s : Share) : Share.deserialize s.serialize = some { s with bits := s.bits.map fun b => big 32 (wfix 4 b) } := by
  obtain ⟨name, jobId, en, t, n, bits⟩ := s
  cases bits with
  | none =>
    simp only [Share.deserialize, Share.read, Share.serialize, Share.readFive, readJobId, readBytes_write, readInt32_big,
      readNonce_big, Read.andThen, Read.orDefault, Option.map_none]
  | some b =>
    simp only [Share.deserialize, Share.read, Share.serialize, Share.readFive, readJobId, readBytes_write, readInt32_big,
      readNonce_big, readInt32_write, Read.andThen, Read.orDefault, Option.map_some]

/-- **C60** A share without version bits is read from its own JSON form as the same share.  Missing: the same with version bits,
and the refusal of malformed nonces. -/
theorem C60_round_partial (s : Share) (h : s.bits = none) : Share.deserialize s.serialize = some s := by
  rw [share_round, h]
  cases s
  simp_all

example : Share.deserialize (Share.serialize { name := "slush.miner1".toList, jobId := "bf".toList, extraNonce2 := [0, 0, 0, 1], timestamp := 0x504e86ed, nonce := 0xb2957c02 }) = some { name := "slush.miner1".toList, jobId := "bf".toList, extraNonce2 := [0, 0, 0, 1], timestamp := 0x504e86ed, nonce := 0xb2957c02 } :=
  C60_round_partial _ rfl

/-- **C60** A share is read back as it was exactly if it has no version bits or bits whose bytes are the same backward. -/
theorem C60_exact (s : Share) : Share.deserialize s.serialize = some s ↔ ∀ b, s.bits = some b → Spec.Backward b := by
  rw [share_round]
  obtain ⟨name, jobId, en, t, n, bits⟩ := s
  cases bits with
  | none => simp
  | some b =>
    simp only [Option.map_some, Option.some.injEq, Share.mk.injEq, true_and, forall_eq']
    exact version_fixed b

/-- **C60, false as stated** A share with version bits 0x00002000 is read back with bits 0x00200000. -/
theorem C60_false_bits : Share.deserialize (Share.serialize { name := "a".toList, bits := some 0x00002000 }) =
    some { name := "a".toList, bits := some 0x00200000 } := by
  rw [share_round]
  decide +kernel

/-- **C60, false as stated** A nonce of eight characters that are not digits is undefined behaviour. -/
theorem C60_false_nonce : Share.deserialize [.str "a".toList, .str "bf".toList, .str "".toList, .str "504e86ed".toList,
    .str "nonsense".toList] = none := by decide +kernel

theorem isHex32_iff (t : List Char) (x : BitVec 32) :
    Spec.IsHex32 t x ↔ t.length = 8 ∧ ∃ b, hexRead t = some b ∧ big 32 b = x := by
  unfold Spec.IsHex32
  constructor
  · intro h
    have := hexRead_length _ _ h
    refine ⟨by simpa using this, _, h, big_wfix x⟩
  · rintro ⟨hl, b, hb, rfl⟩
    have hlb := hexRead_len hb
    rw [hl] at hlb
    unfold big
    rw [wfix_little (by decide) (by simpa using hlb), List.reverse_reverse]
    exact hb

theorem readInt32_ok (j : Json) (x : BitVec 32) : readInt32 j = .ok x ↔ ∃ t, j = .str t ∧ Spec.IsHex32 t x := by
  simp only [isHex32_iff]
  unfold readInt32
  split
  · next s =>
    simp only [Json.str.injEq, exists_eq_left']
    split
    · next hl =>
      split
      · next b hb => simp [hl, hb]
      · next hb => simp [hb]
    · next hl => simp [hl]
  · next h =>
    constructor
    · intro e
      simp at e
    · rintro ⟨t, rfl, -⟩
      exact absurd rfl (h t)

theorem readNonce_ok (j : Json) (x : BitVec 32) : readNonce j = .ok x ↔ ∃ t, j = .str t ∧ Spec.IsHex32 t x := by
  simp only [isHex32_iff]
  unfold readNonce
  split
  · next s =>
    simp only [Json.str.injEq, exists_eq_left']
    split
    · next hl =>
      split
      · next b hb => simp [hl, hb]
      · next hb => simp [hb]
    · next hl => simp [hl]
  · next h =>
    constructor
    · intro e
      simp at e
    · rintro ⟨t, rfl, -⟩
      exact absurd rfl (h t)

theorem readNonce_ub (j : Json) : readNonce j = .ub ↔ ∃ t, j = .str t ∧ t.length = 8 ∧ hexRead t = none := by
  unfold readNonce
  split
  · next s =>
    simp only [Json.str.injEq, exists_eq_left']
    split
    · next hl =>
      split
      · next b hb => simp [hb]
      · next hb => simp [hl, hb]
    · next hl => simp [hl]
  · next h =>
    constructor
    · intro e
      simp at e
    · rintro ⟨t, rfl, -⟩
      exact absurd rfl (h t)

theorem readBytes_ok (j : Json) (x : Bytes) : readBytes j = .ok x ↔ ∃ t, j = .str t ∧ hexRead t = some x := by
  unfold readBytes
  split
  · next s =>
    simp only [Json.str.injEq, exists_eq_left']
    split
    · next b hb => simp [hb]
    · next hb => simp [hb]
  · next h =>
    constructor
    · intro e
      simp at e
    · rintro ⟨t, rfl, -⟩
      exact absurd rfl (h t)

theorem readJobId_ok (j : Json) (x : List Char) : readJobId j = .ok x ↔ j = .str x := by
  unfold readJobId
  split
  · simp
  · next h =>
    constructor
    · intro e
      simp at e
    · rintro rfl
      exact absurd rfl (h x)

theorem andThen_ok {r : Read α} {f : α → Read β} {b : β} : r.andThen f = .ok b ↔ ∃ a, r = .ok a ∧ f a = .ok b := by
  cases r <;> simp [Read.andThen]

theorem andThen_ub {r : Read α} {f : α → Read β} : r.andThen f = .ub ↔ r = .ub ∨ ∃ a, r = .ok a ∧ f a = .ub := by
  cases r <;> simp [Read.andThen]

theorem readFive_ok (j0 j1 j2 j3 j4 : Json) (s : Share) : Share.readFive j0 j1 j2 j3 j4 = .ok s ↔
    s.bits = none ∧ j0 = .str s.name ∧ readJobId j1 = .ok s.jobId ∧ readBytes j2 = .ok s.extraNonce2 ∧
      readInt32 j3 = .ok s.timestamp ∧ readNonce j4 = .ok s.nonce := by
  unfold Share.readFive
  split
  · next name =>
    simp only [andThen_ok]
    constructor
    · rintro ⟨jobId, h1, en, h2, t, h3, n, h4, h5⟩
      simp only [Read.ok.injEq] at h5
      subst h5
      exact ⟨rfl, rfl, h1, h2, h3, h4⟩
    · rintro ⟨h0, h, h1, h2, h3, h4⟩
      refine ⟨_, h1, _, h2, _, h3, _, h4, ?_⟩
      simp only [Json.str.injEq] at h
      cases s
      simp_all
  · next h =>
    constructor
    · intro e
      simp at e
    · rintro ⟨-, rfl, -⟩
      exact absurd rfl (h _)

theorem share_read (p : List Json) (s : Share) : Share.read p = .ok s ↔ Spec.IsShare p s := by
  unfold Share.read Spec.IsShare
  split
  · next j0 j1 j2 j3 j4 =>
    rw [readFive_ok, readJobId_ok, readBytes_ok, readInt32_ok, readNonce_ok]
    constructor
    · rintro ⟨hb, rfl, rfl, ⟨t2, rfl, h2⟩, ⟨t3, rfl, h3⟩, t4, rfl, h4⟩
      refine ⟨t2, t3, t4, h2, h3, h4, ?_⟩
      rw [hb]
    · rintro ⟨t2, t3, t4, h2, h3, h4, h⟩
      cases hb : s.bits with
      | none =>
        rw [hb] at h
        simp only [List.cons.injEq, and_true] at h
        obtain ⟨e0, e1, e2, e3, e4⟩ := h
        exact ⟨rfl, e0, e1, ⟨t2, e2, h2⟩, ⟨t3, e3, h3⟩, t4, e4, h4⟩
      | some b =>
        rw [hb] at h
        simp at h
  · next j0 j1 j2 j3 j4 j5 =>
    simp only [andThen_ok, readFive_ok, readJobId_ok, readBytes_ok, readInt32_ok, readNonce_ok]
    constructor
    · rintro ⟨s', ⟨hb, rfl, rfl, ⟨t2, rfl, h2⟩, ⟨t3, rfl, h3⟩, t4, rfl, h4⟩, b, ⟨t5, rfl, h5⟩, e⟩
      simp only [Read.ok.injEq] at e
      subst e
      exact ⟨t2, t3, t4, h2, h3, h4, t5, h5, rfl⟩
    · rintro ⟨t2, t3, t4, h2, h3, h4, h⟩
      cases hb : s.bits with
      | none =>
        rw [hb] at h
        simp at h
      | some b =>
        rw [hb] at h
        obtain ⟨t5, h5, h⟩ := h
        simp only [List.cons.injEq, and_true] at h
        obtain ⟨e0, e1, e2, e3, e4, e5⟩ := h
        refine ⟨{ s with bits := none }, ⟨rfl, e0, e1, ⟨t2, e2, h2⟩, ⟨t3, e3, h3⟩, t4, e4, h4⟩, b, ⟨t5, e5, h5⟩, ?_⟩
        cases s
        simp_all
  · next h1 h2 =>
    constructor
    · intro e
      simp at e
    · rintro ⟨t2, t3, t4, -, -, -, h⟩
      cases hb : s.bits with
      | none =>
        rw [hb] at h
        exact absurd h (h1 _ _ _ _ _)
      | some b =>
        rw [hb] at h
        obtain ⟨t5, -, h⟩ := h
        exact absurd h (h2 _ _ _ _ _ _)

/-- **C60** A list of values is read as a valid share exactly if it is one of a name that is not empty, a job, bytes, a time, a
nonce and perhaps version bits, each in the form it should have; the fields of the share are those of the list. -/
theorem C60_accepts (p : List Json) (s : Share) :
    (Share.deserialize p = some s ∧ s.valid = true) ↔ (Spec.IsShare p s ∧ s.name ≠ []) := by
  rw [← share_read]
  unfold Share.deserialize
  cases e : Share.read p with
  | ok a =>
    simp only [Read.orDefault, Option.some.injEq, Read.ok.injEq]
    simp [Share.valid]
  | refused =>
    simp only [Read.orDefault, Option.some.injEq]
    constructor
    · rintro ⟨rfl, h⟩
      simp [Share.valid, default] at h
    · rintro ⟨h, -⟩
      simp at h
  | ub => simp [Read.orDefault]

example : Spec.IsShare [.str "slush.miner1".toList, .str "bf".toList, .str "00000001".toList, .str "504e86ed".toList,
    .str "B2957c02".toList] { name := "slush.miner1".toList, jobId := "bf".toList, extraNonce2 := [0, 0, 0, 1], timestamp := 0x504e86ed, nonce := 0xb2957c02 } :=
  ⟨_, _, _, by decide +kernel, by unfold Spec.IsHex32; decide +kernel, by unfold Spec.IsHex32; decide +kernel, rfl⟩

/-- **C60** Reading a list of values is undefined behaviour exactly if the nonce is eight characters that are not all digits and
everything before it is as it should be. -/
theorem C60_undefined (p : List Json) : Share.deserialize p = none ↔
    ∃ name job t2 b2 t3 x3 t4, hexRead t2 = some b2 ∧ Spec.IsHex32 t3 x3 ∧ t4.length = 8 ∧ hexRead t4 = none ∧
      ∃ rest : List Json, rest.length ≤ 1 ∧ p = [.str name, .str job, .str t2, .str t3, .str t4] ++ rest := by
  have five : ∀ j0 j1 j2 j3 j4, Share.readFive j0 j1 j2 j3 j4 = .ub ↔
      ∃ name job t2 b2 t3 x3 t4, hexRead t2 = some b2 ∧ Spec.IsHex32 t3 x3 ∧ t4.length = 8 ∧ hexRead t4 = none ∧
        j0 = .str name ∧ j1 = .str job ∧ j2 = .str t2 ∧ j3 = .str t3 ∧ j4 = .str t4 := by
    intro j0 j1 j2 j3 j4
    unfold Share.readFive
    split
    · next name =>
      simp only [andThen_ub, readJobId_ne_ub, readBytes_ne_ub, readInt32_ne_ub, false_or, readJobId_ok, readBytes_ok,
        readInt32_ok, readNonce_ub]
      constructor
      · rintro ⟨job, rfl, b2, ⟨t2, rfl, h2⟩, x3, ⟨t3, rfl, h3⟩, ⟨t4, rfl, h4, h5⟩ | ⟨a, -, h⟩⟩
        · exact ⟨name, job, t2, b2, t3, x3, t4, h2, h3, h4, h5, rfl, rfl, rfl, rfl, rfl⟩
        · simp at h
      · rintro ⟨name', job, t2, b2, t3, x3, t4, h2, h3, h4, h5, -, rfl, rfl, rfl, rfl⟩
        exact ⟨job, rfl, b2, ⟨t2, rfl, h2⟩, x3, ⟨t3, rfl, h3⟩, .inl ⟨t4, rfl, h4, h5⟩⟩
    · next h =>
      constructor
      · intro e
        simp at e
      · rintro ⟨name, job, t2, b2, t3, x3, t4, -, -, -, -, rfl, -⟩
        exact absurd rfl (h _)
  have hu : Share.deserialize p = none ↔ Share.read p = .ub := by
    unfold Share.deserialize
    cases Share.read p <;> simp [Read.orDefault]
  rw [hu]
  unfold Share.read
  split
  · next j0 j1 j2 j3 j4 =>
    rw [five]
    constructor
    · rintro ⟨name, job, t2, b2, t3, x3, t4, h2, h3, h4, h5, rfl, rfl, rfl, rfl, rfl⟩
      exact ⟨name, job, t2, b2, t3, x3, t4, h2, h3, h4, h5, [], by simp, rfl⟩
    · rintro ⟨name, job, t2, b2, t3, x3, t4, h2, h3, h4, h5, rest, hr, e⟩
      simp only [List.cons_append, List.nil_append, List.cons.injEq] at e
      obtain ⟨e0, e1, e2, e3, e4, -⟩ := e
      exact ⟨name, job, t2, b2, t3, x3, t4, h2, h3, h4, h5, e0, e1, e2, e3, e4⟩
  · next j0 j1 j2 j3 j4 j5 =>
    rw [andThen_ub, five]
    constructor
    · rintro (⟨name, job, t2, b2, t3, x3, t4, h2, h3, h4, h5, rfl, rfl, rfl, rfl, rfl⟩ | ⟨a, -, h⟩)
      · exact ⟨name, job, t2, b2, t3, x3, t4, h2, h3, h4, h5, [j5], by simp, rfl⟩
      · rw [andThen_ub] at h
        rcases h with h | ⟨b, -, h⟩
        · exact absurd h (readInt32_ne_ub _)
        · simp at h
    · rintro ⟨name, job, t2, b2, t3, x3, t4, h2, h3, h4, h5, rest, hr, e⟩
      simp only [List.cons_append, List.nil_append, List.cons.injEq] at e
      obtain ⟨e0, e1, e2, e3, e4, -⟩ := e
      exact .inl ⟨name, job, t2, b2, t3, x3, t4, h2, h3, h4, h5, e0, e1, e2, e3, e4⟩
  · next h1 h2 =>
    constructor
    · intro e
      simp at e
    · rintro ⟨name, job, t2, b2, t3, x3, t4, -, -, -, -, rest, hr, e⟩
      match rest, hr with
      | [], _ => exact absurd e (h1 _ _ _ _ _)
      | [j], _ => exact absurd e (h2 _ _ _ _ _ _)

end Verif.Stratum
