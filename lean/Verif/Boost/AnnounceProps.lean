import Verif.Boost.Announce
import Verif.Boost.RedeemProps
import Verif.Boost.SizeProps
import Mathlib.Tactic.SplitIfs

/-
C154: what a valid Boost puzzle promises, and how long the inputs are that redeem it.
-/

namespace Verif.Boost

open Verif Script Work Sig Pay Keys Text

variable {P : Type} [AddCommGroup P]

/-! ### Specification -/

/-- The numbers of signatures made with a key are below the order of the curve, as those of libsecp256k1 are. -/
def Ranged (E : Ecdsa P) (sk : Bytes) : Prop :=
  ∀ h, ∃ r s, Unpadded r ∧ Unpadded s ∧ E.sign sk h = derBytes r s ∧
    Sig.beNat r < 0xFFFFFFFFFFFFFFFFFFFFFFFFFFFFFFFEBAAEDCE6AF48A03BBFD25E8CD0364141 ∧
    Sig.beNat s < 0xFFFFFFFFFFFFFFFFFFFFFFFFFFFFFFFEBAAEDCE6AF48A03BBFD25E8CD0364141

/-! ### How long signatures are -/

theorem beNat_cons_ge (a : UInt8) (t : Bytes) : a.toNat * 256 ^ t.length ≤ Sig.beNat (a :: t) := by
  have h : ∀ (t : Bytes) (n : Nat), n * 256 ^ t.length ≤ t.foldl (fun a x => a * 256 + x.toNat) n := by
    intro t
    induction t with
    | nil => intro n; simp
    | cons b t ih =>
      intro n
      rw [List.foldl_cons, List.length_cons, Nat.pow_succ]
      refine Nat.le_trans ?_ (ih _)
      rw [Nat.mul_comm (256 ^ t.length) 256, ← Nat.mul_assoc]
      exact Nat.mul_le_mul_right _ (by omega)
  have := h t a.toNat
  unfold Sig.beNat
  rw [List.foldl_cons]
  simpa using this

theorem length_of_beNat {a : UInt8} {t : Bytes} {k m N : Nat} (h : k ≤ a.toNat) (hb : Sig.beNat (a :: t) < N)
    (hN : N ≤ k * 256 ^ m) : t.length < m := by
  rcases Nat.lt_or_ge t.length m with hl | hl
  · exact hl
  · have h1 := Nat.le_trans (Nat.mul_le_mul_right (256 ^ t.length) h) (beNat_cons_ge a t)
    have h2 : k * 256 ^ m ≤ k * 256 ^ t.length := Nat.mul_le_mul_left _ (Nat.pow_le_pow_right (by decide) hl)
    omega

theorem high_bit {b : UInt8} (h : b &&& 0x80 ≠ 0) : 128 ≤ b.toNat := by
  revert h
  exact Script.forall_byte (fun b => b &&& 0x80 ≠ 0 → 128 ≤ b.toNat) (by decide +kernel) b

/-- A number of a DER form: zeros before it and the number itself. -/
theorem unpadded_split {r : Bytes} (hu : Unpadded r)
    (hr : Sig.beNat r < 0xFFFFFFFFFFFFFFFFFFFFFFFFFFFFFFFEBAAEDCE6AF48A03BBFD25E8CD0364141) :
    ∃ z t, r = z ++ t ∧ (∀ b ∈ z, b = 0) ∧ (∀ a u, t = a :: u → a ≠ 0) ∧ t.length ≤ 32 ∧ r.length ≤ 33 ∧ Sig.beNat t = Sig.beNat r ∧
      (2 * Sig.beNat r ≤ 0xFFFFFFFFFFFFFFFFFFFFFFFFFFFFFFFEBAAEDCE6AF48A03BBFD25E8CD0364141 → r.length ≤ 32) := by
  obtain ⟨a, t, rfl, h⟩ := hu
  by_cases ha : a = 0
  · subst ha
    obtain ⟨b, u, rfl, hb⟩ := h rfl
    have hb := high_bit hb
    have he : Sig.beNat (0 :: b :: u) = Sig.beNat (b :: u) := beNat_zeros 1 (b :: u)
    have hl := length_of_beNat (m := 32) (k := 128) hb (he ▸ hr) (by decide)
    refine ⟨[0], b :: u, rfl, by simp, ?_, by simp; omega, by simp; omega, he.symm, ?_⟩
    · intro c v hc
      cases hc
      intro h0
      subst h0
      revert hb
      decide
    · intro h2
      have := length_of_beNat (t := u) (m := 31) (k := 128) (N := 2 ^ 255) hb (by rw [he] at h2; omega) (by decide)
      simp only [List.length_cons]
      omega
  · have h1 : 1 ≤ a.toNat := by
      rcases Nat.eq_zero_or_pos a.toNat with h0 | h0
      · exact absurd (UInt8.toNat.inj h0) ha
      · exact h0
    have hl := length_of_beNat (m := 32) h1 hr (by decide)
    refine ⟨[], a :: t, rfl, by simp, ?_, by simp; omega, by simp; omega, rfl, fun _ => by simp; omega⟩
    intro c v hc
    cases hc
    exact ha

/-- A signature with a low S has at most 71 bytes. -/
theorem sign_short (E : Ecdsa P) (sk : Bytes) (hk : secretOk sk = true) (hr : Ranged E sk) (h : BitVec 256) :
    (E.sign sk h).length ≤ 71 := by
  obtain ⟨r, s, ur, us, e, lr, ls⟩ := hr h
  have hl := E.sign_low sk h hk
  rw [e] at hl ⊢
  obtain ⟨zr, r', rfl, z1, n1, l1, b1, e1, _⟩ := unpadded_split ur lr
  obtain ⟨zs, s', rfl, z2, n2, l2, b2, e2, low⟩ := unpadded_split us ls
  have := (C76_low_s zr r' zs s' z1 z2 n1 n2 l1 l2 (by omega) (by omega) (e1 ▸ lr) (e2 ▸ ls)).1 hl
  have := low (e2 ▸ this)
  simp only [derBytes, List.length_append, List.length_cons] at *
  omega

/-! ### How long input scripts are -/

theorem varIntSize_mono {a b : Nat} (h : a ≤ b) : varIntSize a ≤ varIntSize b := by
  unfold varIntSize
  split_ifs <;> omega

/-- An input script made of a solution has the parts that it was made of, or is the empty one. -/
theorem ofSolution_parts (hash160 : Bytes → BitVec 160) (sig pub : Bytes) (x : Solution) (t : Kind) (m : Bool) :
    Input.ofSolution hash160 sig pub x t m = .empty ∨
      (t ≠ .invalid ∧ (Input.ofSolution hash160 sig pub x t m).kind = t ∧
        (Input.ofSolution hash160 sig pub x t m).bits.isSome = m ∧ (Input.ofSolution hash160 sig pub x t m).signature = sig ∧
        (Input.ofSolution hash160 sig pub x t m).pubkey = pub ∧
        (Input.ofSolution hash160 sig pub x t m).extraNonce2 = x.extraNonce2) := by
  by_cases hc : t = .invalid ∨ x.timestamp = 0 ∨ (m = false ∧ x.bits ≠ none)
  · exact .inl (by unfold Input.ofSolution; rw [if_pos hc])
  · refine .inr ⟨fun h => hc (.inl h), ?_⟩
    unfold Input.ofSolution
    rw [if_neg hc]
    have hk : t ≠ .invalid := fun h => hc (.inl h)
    clear hc
    cases t with
    | invalid => exact absurd rfl hk
    | bounty => cases m <;> exact ⟨rfl, rfl, rfl, rfl, rfl⟩
    | contract => cases m <;> exact ⟨rfl, rfl, rfl, rfl, rfl⟩

theorem empty_script {i : Input} {b : Bytes} (h : i = .empty) (hb : i.write = .ok b) : b = [] := by
  subst h
  have : Input.empty.write = .ok [] := by decide
  rw [this] at hb
  cases hb
  rfl

/-- The inputs that are made: one for each output, with the script made of a signature. -/
theorem redeemFrom_scripts (E : Ecdsa P) (hash160 : Bytes → Bytes) (H : Bytes → BitVec 256) (p : BPuzzle) (o : Output) (code : Program)
    (tx : ITx) (x : Solution) (l : List Prevout) (k : Nat) (ins : List Verif.Input)
    (h : redeemFrom E hash160 H p o code tx x k l = .ok ins) :
    ins.length = l.length ∧ ∀ i ∈ ins, ∃ d,
      (Input.ofSolution (digest160 hash160) (E.sign p.key.key d ++ [0x41]) (E.pubkeyOf p.key) x o.kind o.useBits).write = .ok i.script := by
  induction l generalizing k ins with
  | nil => cases h; simp
  | cons u l ih =>
    unfold redeemFrom Ecdsa.signDoc at h
    cases hs : sigHash H ⟨tx, BitVec.ofNat 32 k, u.value, code⟩ 0x41 with
    | error e => rw [hs] at h; cases h
    | ok d =>
      rw [hs] at h
      simp only [bind, Except.bind] at h
      cases hw : (Input.ofSolution (digest160 hash160) (E.sign p.key.key d ++ [0x41]) (E.pubkeyOf p.key) x o.kind o.useBits).write with
      | error e => rw [hw] at h; cases h
      | ok ux =>
        rw [hw] at h
        simp only at h
        cases hr : redeemFrom E hash160 H p o code tx x (k + 1) l with
        | error e => rw [hr] at h; cases h
        | ok rest =>
          rw [hr] at h
          simp only [Except.ok.injEq] at h
          subst h
          obtain ⟨h1, h2⟩ := ih (k + 1) rest hr
          refine ⟨by simp [h1], ?_⟩
          intro i hi
          rw [List.mem_cons] at hi
          rcases hi with rfl | hi
          · exact ⟨d, hw⟩
          · exact h2 i hi

/-- What was redeemed. -/
theorem redeem_scripts (E : Ecdsa P) (hash160 : Bytes → Bytes) (H : Bytes → BitVec 256) (p : BPuzzle) (x : Solution)
    (outs : List Verif.Output) (t : Tx) (h : p.redeem E hash160 H x outs = .ok t) :
    ∃ o, Output.read p.candidate.script = some o ∧ t.outputs = outs ∧ t.inputs.length = p.candidate.prevouts.length ∧
      ∀ i ∈ t.inputs, ∃ d,
        (Input.ofSolution (digest160 hash160) (E.sign p.key.key d ++ [0x41]) (E.pubkeyOf p.key) x o.kind o.useBits).write =
          .ok i.script := by
  unfold BPuzzle.redeem at h
  cases ho : Output.read p.candidate.script with
  | none => rw [ho] at h; cases h
  | some o =>
    rw [ho] at h
    refine ⟨o, rfl, ?_⟩
    simp only at h
    cases hv : p.candidate.value with
    | none => rw [hv] at h; cases h
    | some v =>
      rw [hv] at h
      simp only at h
      cases hd : decompile p.candidate.script with
      | error e =>
        rw [hd] at h
        simp only at h
        split at h
        · rename_i he
          cases h
          rw [List.isEmpty_iff] at he
          rw [he]
          exact ⟨rfl, rfl, by simp⟩
        · cases h
      | ok code =>
        rw [hd] at h
        simp only at h
        cases hr : redeemFrom E hash160 H p o code (p.incomplete outs) x 0 p.candidate.prevouts with
        | error e => rw [hr] at h; cases h
        | ok ins =>
          rw [hr] at h
          simp only [Except.map, Except.ok.injEq] at h
          subst h
          obtain ⟨h1, h2⟩ := redeemFrom_scripts E hash160 H p o code _ x _ 0 ins hr
          exact ⟨rfl, h1, h2⟩

theorem pubkeyOf_length (E : Ecdsa P) (s : Secret) (hk : secretOk s.key = true) :
    (E.pubkeyOf s).length = if s.compressed then 33 else 65 := by
  rw [pubkeyOf_eq E s hk, E.lib.enc_length]

theorem inputs_length (l : List Verif.Input) (n : Nat) (h : ∀ i ∈ l, i.script.length ≤ n) :
    (l.flatMap Verif.Input.write).length ≤ l.length * (n + varIntSize n + 40) := by
  induction l with
  | nil => simp
  | cons i l ih =>
    have h1 := h i (by simp)
    have h2 := ih fun j hj => h j (by simp [hj])
    have h3 := varIntSize_mono h1
    rw [List.flatMap_cons, List.length_append, Verif.Input.write_length, List.length_cons, Nat.succ_mul]
    unfold Verif.Input.serializedSize
    omega

theorem inputs_length_eq (l : List Verif.Input) (n : Nat) (h : ∀ i ∈ l, i.script.length = n) :
    (l.flatMap Verif.Input.write).length = l.length * (n + varIntSize n + 40) := by
  induction l with
  | nil => simp
  | cons i l ih =>
    have h1 := h i (by simp)
    have h2 := ih fun j hj => h j (by simp [hj])
    rw [List.flatMap_cons, List.length_append, Verif.Input.write_length, List.length_cons, Nat.succ_mul]
    unfold Verif.Input.serializedSize
    rw [h1]
    omega

theorem inputs_longer (l : List Verif.Input) (n : Nat) (hl : l ≠ []) (h : ∀ i ∈ l, n < i.script.length) :
    l.length * (n + varIntSize n + 40) < (l.flatMap Verif.Input.write).length := by
  induction l with
  | nil => exact absurd rfl hl
  | cons i l ih =>
    have h1 := h i (by simp)
    have h3 := varIntSize_mono (Nat.le_of_lt h1)
    have h2 : l.length * (n + varIntSize n + 40) ≤ (l.flatMap Verif.Input.write).length := by
      cases l with
      | nil => simp
      | cons j l => exact Nat.le_of_lt (ih (by simp) fun j hj => h j (by simp [hj]))
    rw [List.flatMap_cons, List.length_append, Verif.Input.write_length, List.length_cons, Nat.succ_mul]
    unfold Verif.Input.serializedSize
    omega

/-- What is read has a tag that is not too long, and names no miner if it is a bounty. -/
theorem read_plain {b : Bytes} {o : Output} (h : Output.read b = some o) (hv : o.valid = true) :
    o.tag.length ≤ 20 ∧ (o.kind = .bounty → o.hash = 0) := by
  have key : ∀ l u, o = .ofLog l u → o.tag.length ≤ 20 ∧ (o.kind = .bounty → o.hash = 0) := by
    rintro l u rfl
    unfold Output.ofLog at hv ⊢
    by_cases ht : (l.value 4 []).length > 20
    · rw [if_pos ht] at hv
      exact absurd hv (by decide)
    · rw [if_neg ht]
      refine ⟨by simp only; omega, ?_⟩
      simp only
      intro hk
      by_cases h0 : (l.value 0 []).length = 0
      · rw [if_pos h0]
      · rw [if_neg h0] at hk; cases hk
  unfold Output.read at h
  split at h
  · simp only [Option.some.injEq] at h
    exact key _ _ h.symm
  · split at h
    · simp only [Option.some.injEq] at h
      exact key _ _ h.symm
    · simp only [Option.some.injEq] at h
      subst h
      exact absurd hv (by decide)
    · cases h
  · cases h

/-! ### C154 -/

/-- **C154**: redeem a puzzle with a solution.  Written out, the inputs of the transaction are no longer than was expected, and so the
transaction is no longer than they, its outputs and eight bytes; for second extra nonces of at most eight bytes. -/
theorem C154_size_partial (E : Ecdsa P) (hash160 : Bytes → Bytes) (H : Bytes → BitVec 256) (p : BPuzzle) (x : Solution)
    (outs : List Verif.Output) (hk : secretOk p.key.key = true) (hr : Ranged E p.key.key) (hn : x.extraNonce2.length ≤ 8)
    (t : Tx) (h : p.redeem E hash160 H x outs = .ok t) :
    ∃ n, p.expectedSize = some n ∧ (varSeqWrite Verif.Input.write t.inputs).length ≤ n ∧
      t.write.length ≤ 8 + n + (varSeqWrite Verif.Output.write outs).length := by
  obtain ⟨o, ho, h1, h2, h3⟩ := redeem_scripts E hash160 H p x outs t h
  have key : (varSeqWrite Verif.Input.write t.inputs).length ≤ varIntSize p.candidate.prevouts.length + p.candidate.prevouts.length *
      (Boost.expectedSize o.kind o.useBits p.key.compressed +
        varIntSize (Boost.expectedSize o.kind o.useBits p.key.compressed) + 40) := by
    unfold varSeqWrite
    rw [List.length_append, varIntWrite_length, h2]
    refine Nat.add_le_add_left ?_ _
    rw [← h2]
    refine inputs_length _ _ ?_
    intro i hi
    obtain ⟨d, hd⟩ := h3 i hi
    rcases ofSolution_parts (digest160 hash160) (E.sign p.key.key d ++ [0x41]) (E.pubkeyOf p.key) x o.kind o.useBits with he | he
    · rw [empty_script he hd]
      exact Nat.zero_le _
    · obtain ⟨e0, e1, e2, e3, e4, e5⟩ := he
      have hs := sign_short E p.key.key hk hr d
      have hpl := pubkeyOf_length E p.key hk
      obtain ⟨b, hb1, hb2⟩ := C93_expected_partial _ (by rw [e1]; exact e0)
        (by rw [e3, List.length_append, List.length_cons, List.length_nil]; omega)
        (by rw [e4, hpl]; cases p.key.compressed <;> simp) (by rw [e5]; exact hn)
      rw [hd] at hb1
      cases hb1
      rw [e1, e2, e4, hpl] at hb2
      cases hc : p.key.compressed <;> rw [hc] at hb2 <;> simpa using hb2
  refine ⟨_, by unfold BPuzzle.expectedSize; rw [ho]; rfl, key, ?_⟩
  unfold Tx.write
  simp only [List.length_append, wfix_length, h1]
  omega

/-- **C154**: no more is expected than there can be.  If all signatures are as long as they can be, and the second extra nonce has eight
bytes, the inputs are exactly as long as was expected. -/
theorem C154_attained (E : Ecdsa P) (hash160 : Bytes → Bytes) (H : Bytes → BitVec 256) (p : BPuzzle) (o : Output) (x : Solution)
    (ho : Output.read p.candidate.script = some o) (hv : o.valid = true) (hx : Shaped o x)
    (outs : List Verif.Output) (hk : secretOk p.key.key = true) (hl : ∀ d, (E.sign p.key.key d).length = 71)
    (hn : x.extraNonce2.length = 8) (t : Tx) (h : p.redeem E hash160 H x outs = .ok t) :
    p.expectedSize = some (varSeqWrite Verif.Input.write t.inputs).length := by
  obtain ⟨o', ho', h1, h2, h3⟩ := redeem_scripts E hash160 H p x outs t h
  rw [ho] at ho'
  cases ho'
  unfold BPuzzle.expectedSize varSeqWrite
  rw [ho, List.length_append, varIntWrite_length, inputs_length_eq _ (Boost.expectedSize o.kind o.useBits p.key.compressed), h2]
  · rfl
  intro i hi
  obtain ⟨d, hd⟩ := h3 i hi
  obtain ⟨f1, f2, f3, f4, f5, f6, f7⟩ := ofSolution_fields hash160 o (E.sign p.key.key d ++ [0x41]) (E.pubkeyOf p.key) x hv hx
  have hne : o.kind ≠ .invalid := by simpa [Output.valid] using hv
  have hpl := pubkeyOf_length E p.key hk
  have h7 := hl d
  rcases ofSolution_parts (digest160 hash160) (E.sign p.key.key d ++ [0x41]) (E.pubkeyOf p.key) x o.kind o.useBits with he | he
  · rw [he] at f1
    exact absurd f1.symm hne
  obtain ⟨_, _, _, _, _, e5⟩ := he
  generalize hi' : Input.ofSolution (digest160 hash160) (E.sign p.key.key d ++ [0x41]) (E.pubkeyOf p.key) x o.kind o.useBits = j at *
  have hp : j.pubkey.length = 33 ∨ j.pubkey.length = 65 := by rw [f5, hpl]; cases p.key.compressed <;> simp
  have hsl : j.signature.length = 72 := by rw [f4, List.length_append, h7]; rfl
  rw [j.write_eq (by omega) hp (by omega)] at hd
  injection hd with hd
  rw [← hd, j.length_eq (by rw [f1]; exact hne), push_fix 72 hsl (by decide) (by decide), push_fix (d := j.extraNonce2) 8 (by rw [e5]; exact hn) (by decide) (by decide)]
  unfold Boost.expectedSize
  rw [if_neg hne, f1, f2]
  cases hc : p.key.compressed with
  | true =>
    rw [push_fix (d := j.pubkey) 33 (by rw [f5, hpl, hc]; rfl) (by decide) (by decide)]
    simp only [if_true]
    omega
  | false =>
    rw [push_fix (d := j.pubkey) 65 (by rw [f5, hpl, hc]; rfl) (by decide) (by decide)]
    simp only [Bool.false_eq_true, if_false]
    omega

/-- **C154, false as stated**: with general purpose bits the second extra nonce may have up to 32 bytes.  With one of 32 bytes every
puzzle that has an output is redeemed by inputs that are longer than expected, unless its signatures have less than 48 bytes. -/
theorem C154_false_nonce (E : Ecdsa P) (hash160 : Bytes → Bytes) (H : Bytes → BitVec 256) (p : BPuzzle) (o : Output) (x : Solution)
    (ho : Output.read p.candidate.script = some o) (hv : o.valid = true) (hx : Shaped o x)
    (outs : List Verif.Output) (hk : secretOk p.key.key = true) (hl : ∀ d, 48 ≤ (E.sign p.key.key d).length)
    (hn : x.extraNonce2.length = 32) (hp : p.candidate.prevouts ≠ []) (t : Tx) (h : p.redeem E hash160 H x outs = .ok t) :
    ∃ n, p.expectedSize = some n ∧ n < (varSeqWrite Verif.Input.write t.inputs).length := by
  obtain ⟨o', ho', h1, h2, h3⟩ := redeem_scripts E hash160 H p x outs t h
  rw [ho] at ho'
  cases ho'
  have hne' : t.inputs ≠ [] := by
    intro h0
    rw [h0] at h2
    exact hp (List.length_eq_zero_iff.1 h2.symm)
  refine ⟨_, by unfold BPuzzle.expectedSize; rw [ho]; rfl, ?_⟩
  simp only
  unfold varSeqWrite
  rw [List.length_append, varIntWrite_length, h2]
  refine Nat.add_lt_add_left ?_ _
  rw [← h2]
  refine inputs_longer _ _ hne' ?_
  intro i hi
  obtain ⟨d, hd⟩ := h3 i hi
  obtain ⟨f1, f2, f3, f4, f5, f6, f7⟩ := ofSolution_fields hash160 o (E.sign p.key.key d ++ [0x41]) (E.pubkeyOf p.key) x hv hx
  have hne : o.kind ≠ .invalid := by simpa [Output.valid] using hv
  have hpl := pubkeyOf_length E p.key hk
  have h7 := hl d
  have h8 := boost_signature_length E p.key.key d 0x41 hk
  rcases ofSolution_parts (digest160 hash160) (E.sign p.key.key d ++ [0x41]) (E.pubkeyOf p.key) x o.kind o.useBits with he | he
  · rw [he] at f1
    exact absurd f1.symm hne
  obtain ⟨_, _, _, _, _, e5⟩ := he
  generalize hi' : Input.ofSolution (digest160 hash160) (E.sign p.key.key d ++ [0x41]) (E.pubkeyOf p.key) x o.kind o.useBits = j at *
  have hp : j.pubkey.length = 33 ∨ j.pubkey.length = 65 := by rw [f5, hpl]; cases p.key.compressed <;> simp
  have hsl : j.signature.length = (E.sign p.key.key d).length + 1 := by rw [f4, List.length_append]; rfl
  rw [List.length_append, List.length_cons, List.length_nil] at h8
  rw [j.write_eq (by omega) hp (by omega)] at hd
  injection hd with hd
  rw [← hd, j.length_eq (by rw [f1]; exact hne), push_fix _ hsl (by omega) (by omega), push_fix (d := j.extraNonce2) 32 (by rw [e5]; exact hn) (by decide) (by decide)]
  unfold Boost.expectedSize
  rw [if_neg hne, f1, f2]
  cases hc : p.key.compressed with
  | true =>
    rw [push_fix (d := j.pubkey) 33 (by rw [f5, hpl, hc]; rfl) (by decide) (by decide)]
    simp only [if_true]
    omega
  | false =>
    rw [push_fix (d := j.pubkey) 65 (by rw [f5, hpl, hc]; rfl) (by decide) (by decide)]
    simp only [Bool.false_eq_true, if_false]
    omega

/-- **C154**: what a valid puzzle promises.  It has outputs, its script is that of a Boost output, and if that names a miner, it is the
one of the key.  The outputs are referred to, and the key is one of a network and a number below the order with its least byte first.  If
the key is a key of the curve, the script is the one that is written for that Boost output, and the values are amounts that
can be summed up, then it can be redeemed as C107 says: by every valid solution. -/
theorem C154_valid_partial (E : Ecdsa P) (hash160 : Bytes → Bytes) (p : BPuzzle) (h : p.valid E hash160 = some true) :
    ∃ o, Output.read p.candidate.script = some o ∧ o.valid = true ∧ p.candidate.prevouts ≠ [] ∧
      (∀ u ∈ p.candidate.prevouts, u.reference.digest ≠ 0) ∧ p.key.net ≠ .invalid ∧
      0 < leNat p.key.key ∧ leNat p.key.key < Text.curveOrder ∧
      (o.kind = .contract → o.hash = digest160 hash160 (E.pubkeyOf p.key)) ∧
      (secretOk p.key.key = true → digest160 hash160 (E.pubkeyOf p.key) ≠ 0 → o.data.length < 2 ^ 26 →
        o.write = .ok p.candidate.script → (∀ u ∈ p.candidate.prevouts, 0 ≤ u.value.toInt) →
        (p.candidate.prevouts.map fun u => u.value.toInt).sum < 2 ^ 63 → Ready E hash160 p o) := by
  unfold BPuzzle.valid Candidate.valid at h
  by_cases hc : p.candidate.prevouts.length > 0 ∧ p.candidate.prevouts.all (fun u => u.reference.digest != 0) = true
  · rw [if_pos hc] at h
    cases ho : Output.read p.candidate.script with
    | none => rw [ho] at h; cases h
    | some o =>
      rw [ho] at h
      simp only [Option.map_some] at h
      split at h
      · cases h
      · rename_i hkey
        have hkv : p.key.valid = true := by
          cases hk : p.key.valid with
          | true => rfl
          | false => exact absurd (by rw [hk]; simp) hkey
        simp only [Text.Secret.valid, Bool.and_eq_true, decide_eq_true_eq, bne_iff_ne] at hkv
        simp only [Option.some.injEq, Bool.and_eq_true, Bool.or_eq_true, beq_iff_eq] at h
        obtain ⟨hv, hh⟩ := h
        have hname : o.kind = .contract → o.hash = digest160 hash160 (E.pubkeyOf p.key) := by
          intro hk
          rcases hh with hh | hh
          · rw [hk] at hh; cases hh
          · exact hh
        refine ⟨o, rfl, hv, ?_, fun u hu => ?_, hkv.2, hkv.1.1, hkv.1.2, hname, ?_⟩
        · intro h0
          rw [h0] at hc
          exact absurd hc.1 (by simp)
        · simpa using List.all_eq_true.mp hc.2 u hu
        · intro h1 h2 h3 h4 h5 h6
          obtain ⟨ht, hb⟩ := read_plain ho hv
          exact ⟨⟨hv, ht, h3⟩, h4, hb, h1, hname, h2, ⟨h5, h6⟩⟩
  · rw [if_neg hc] at h
    simp at h

/-- The bytes of a number that is below the order with its least byte first, and is not with its greatest byte first. -/
def backwardKey : Secret := ⟨.main, List.replicate 31 0xff ++ [0], true⟩

/-- **C154, false as stated**: the key of a puzzle is asked whether it is valid as a number with its least byte first, and used with its
greatest byte first.  There is a valid puzzle that has no public key at all. -/
theorem C154_false_key (E : Ecdsa P) (hash160 : Bytes → Bytes) :
    ∃ p : BPuzzle, p.valid E hash160 = some true ∧ E.pubkeyOf p.key = [] := by
  have hw : caseOut.write = .ok casePuzzle.candidate.script := Output.write_eq _ (by decide) (by decide)
  obtain ⟨b, h1, h2⟩ := Output.round (o := caseOut) (by decide) (by decide) (by decide) (fun _ => rfl)
  rw [hw] at h1
  injection h1 with h1
  refine ⟨⟨⟨b, [⟨⟨1, 0⟩, 1000⟩]⟩, backwardKey⟩, ?_, ?_⟩
  · unfold BPuzzle.valid Candidate.valid
    simp only
    rw [if_pos (by decide)]
    simp only [h2, Option.map_some]
    rw [if_neg (by decide)]
    rfl
  · unfold Ecdsa.pubkeyOf toPublic
    simp only
    rw [if_pos (by decide), if_neg (by decide)]

/-! ### A case -/

/-- A signer with signatures of 71 bytes, which is a case of those that the theorems are about. -/
def longDer : Bytes := derBytes (0 :: List.replicate 32 0x80) (List.replicate 32 1)

def longEcdsa : Ecdsa (ZMod order) where
  lib := exampleLib
  sign _ _ := longDer
  verify _ _ s := s == longDer
  sign_verifies _ _ _ := by simp
  sign_der _ _ _ := ⟨0 :: List.replicate 32 0x80, List.replicate 32 1, by decide, by decide,
    ⟨0, List.replicate 32 0x80, rfl, fun _ => ⟨0x80, List.replicate 31 0x80, rfl, by decide⟩⟩,
    ⟨1, List.replicate 31 1, rfl, fun h => absurd h (by decide)⟩, rfl⟩
  sign_low _ _ _ := by decide +kernel

example : Ranged longEcdsa exampleKey.key ∧ ∀ d, (longEcdsa.sign exampleKey.key d).length = 71 :=
  ⟨fun _ => ⟨0 :: List.replicate 32 0x80, List.replicate 32 1,
    ⟨0, List.replicate 32 0x80, rfl, fun _ => ⟨0x80, List.replicate 31 0x80, rfl, by decide⟩⟩,
    ⟨1, List.replicate 31 1, rfl, fun h => absurd h (by decide)⟩, rfl, by decide, by decide⟩, fun _ => rfl⟩

/-- Redeeming gives a transaction, as C107 shows of all puzzles of this kind; this one has two outputs. -/
example : ∃ t, casePuzzle.redeem longEcdsa exampleHash160 (fun _ => 0) ⟨1, 2, List.replicate 8 0, some 0x2000, 4⟩ [] = .ok t ∧
    t.inputs.length = 2 := by
  have hr : Ready longEcdsa exampleHash160 casePuzzle caseOut := {
    output := by decide
    script := Output.write_eq _ (by decide) (by decide)
    bounty := fun _ => rfl
    key := by decide
    named := fun h => absurd h (by decide)
    nonzero := by
      have hk : longEcdsa.pubkeyOf casePuzzle.key = exampleLib.enc true (pointOf longEcdsa exampleKey) :=
        pubkeyOf_eq longEcdsa exampleKey (by decide)
      rw [hk]
      obtain ⟨b, hb⟩ : ∃ b, exampleHash160 (exampleLib.enc true (pointOf longEcdsa exampleKey)) = 2 :: b := ⟨_, rfl⟩
      have hl := exampleHash160_length (exampleLib.enc true (pointOf longEcdsa exampleKey))
      unfold digest160
      intro h0
      have h1 := wfix_twenty hl
      rw [h0, hb] at h1
      have h2 := congrArg List.head? h1
      rw [List.head?_cons] at h2
      exact absurd h2 (by decide)
    amounts := by decide }
  obtain ⟨t, w, h1, _, _, _, _, h2, _⟩ := C107_redeems_partial longEcdsa exampleHash160 exampleHash160_length (fun _ => 0) casePuzzle caseOut hr
    ⟨1, 2, List.replicate 8 0, some 0x2000, 4⟩ ⟨by decide, by decide, by decide⟩ []
  refine ⟨t, h1, ?_⟩
  have := congrArg List.length h2
  simp only [List.length_map] at this
  exact this

end Verif.Boost
