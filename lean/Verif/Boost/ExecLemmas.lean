import Verif.Boost.Line
import Verif.Work.Props

/-
Running the Boost output scripts.
-/

namespace Verif.Boost

open Verif Script Work SM

variable {x : Env} {pre : Bytes} {l q : Program} {s a : List Bytes} {Q : Prop}

theorem usage_nil : usage [] = 0 := rfl

/-- The configurations considered: after genesis, with numbers long enough for a digest. -/
structure Wide (x : Env) : Prop where
  genesis : x.cfg.genesisStack = true
  nums : 33 ≤ x.cfg.maxNumLen
  hash : ∀ b, (x.hash .hash256 b).length = 32
  hash' : ∀ b, (x.hash .hash160 b).length = 20

theorem Wide.fits (w : Wide x) {s a : List Bytes} : Fits x.cfg s a ↔ usage s + usage a ≤ x.cfg.maxMem := by
  unfold Fits
  rw [if_pos w.genesis]

/-- The stacks have room for 300 more bytes. -/
def Room (x : Env) (s a : List Bytes) : Prop := usage s + usage a + 300 ≤ x.cfg.maxMem

theorem Room.fits (w : Wide x) (h : Room x s a) : Fits x.cfg s a := by
  rw [w.fits]
  unfold Room at h
  omega

theorem Wide.small (w : Wide x) {k : Nat} (hk : k < 65536) : Num x.cfg k :=
  num_nat (n := 2) (by have := w.nums; omega) hk

/-- Rearranging and joining. -/
theorem L_of {o : Op} {s' a' : List Bytes} (w : Wide x) (ho : (op o).write.head? ≠ some 0xab)
    (h : Fits x.cfg s' a' → Fits x.cfg s a → Steps x (op o) s a s' a') (hr : Room x s' a')
    (hl : Leads x pre l q s' a' Q) : Leads x pre l (op o :: q) s a Q :=
  Leads.cons ho (h (hr.fits w)) (hr.fits w) hl

theorem L_dup {b : Bytes} (w : Wide x) (hr : Room x (b :: b :: s) a) (hl : Leads x pre l q (b :: b :: s) a Q) :
    Leads x pre l (op 0x76 :: q) (b :: s) a Q := L_of w (by decide) st_dup hr hl

theorem L_drop {b : Bytes} (w : Wide x) (hr : Room x s a) (hl : Leads x pre l q s a Q) :
    Leads x pre l (op 0x75 :: q) (b :: s) a Q := L_of w (by decide) st_drop hr hl

theorem L_swap {b c : Bytes} (w : Wide x) (hr : Room x (c :: b :: s) a) (hl : Leads x pre l q (c :: b :: s) a Q) :
    Leads x pre l (op 0x7c :: q) (b :: c :: s) a Q := L_of w (by decide) st_swap hr hl

theorem L_toalt {b : Bytes} (w : Wide x) (hr : Room x s (b :: a)) (hl : Leads x pre l q s (b :: a) Q) :
    Leads x pre l (op 0x6b :: q) (b :: s) a Q := L_of w (by decide) st_toalt hr hl

theorem L_fromalt {b : Bytes} (w : Wide x) (hr : Room x (b :: s) a) (hl : Leads x pre l q (b :: s) a Q) :
    Leads x pre l (op 0x6c :: q) s (b :: a) Q := L_of w (by decide) st_fromalt hr hl

theorem L_cat {b c : Bytes} (w : Wide x) (hr : Room x ((c ++ b) :: s) a) (hl : Leads x pre l q ((c ++ b) :: s) a Q) :
    Leads x pre l (op 0x7e :: q) (b :: c :: s) a Q := L_of w (by decide) st_cat hr hl

theorem L_hash256 {b : Bytes} (w : Wide x) (hr : Room x (x.hash .hash256 b :: s) a)
    (hl : Leads x pre l q (x.hash .hash256 b :: s) a Q) :
    Leads x pre l (op 0xaa :: q) (b :: s) a Q := L_of w (by decide) st_hash256 hr hl

theorem L_hash160 {b : Bytes} (w : Wide x) (hr : Room x (x.hash .hash160 b :: s) a)
    (hl : Leads x pre l q (x.hash .hash160 b :: s) a Q) :
    Leads x pre l (op 0xa9 :: q) (b :: s) a Q := L_of w (by decide) st_hash160 hr hl

theorem push_head {d : Bytes} (hd : d.length < 2 ^ 31) : (Instr.push d).write.head? ≠ some 0xab := by
  obtain ⟨t, h⟩ := write_head (Instr.push d)
  rw [h]
  have := push_isPush' hd
  intro hc
  simp only [List.head?_cons, Option.some.injEq] at hc
  rw [hc] at this
  exact absurd this (by decide)

theorem L_push {d : Bytes} (w : Wide x) (hd : d.length < 2 ^ 31) (hr : Room x (d :: s) a)
    (hl : Leads x pre l q (d :: s) a Q) : Leads x pre l (Instr.push d :: q) s a Q :=
  Leads.cons (push_head hd) (st_data hd (hr.fits w)) (hr.fits w) hl

/-- The opcodes of small numbers. -/
theorem small_op {k : Nat} (h1 : 1 ≤ k) (h2 : k ≤ 16) :
    (op (0x50 + UInt8.ofNat k)).pushData = numEnc k ∧ (numEnc (k : Int)).length = 1 ∧
      78 < (0x50 + UInt8.ofNat k).toNat ∧ isPush (0x50 + UInt8.ofNat k) = true ∧
      (op (0x50 + UInt8.ofNat k)).write.head? ≠ some 0xab := by
  have key : ∀ k : Fin 17, 1 ≤ k.val → (op (0x50 + UInt8.ofNat k.val)).pushData = numEnc (k.val : Int) ∧
      (numEnc (k.val : Int)).length = 1 ∧
      78 < (0x50 + UInt8.ofNat k.val).toNat ∧ isPush (0x50 + UInt8.ofNat k.val) = true ∧
      (op (0x50 + UInt8.ofNat k.val)).write.head? ≠ some 0xab := by decide +kernel
  exact key ⟨k, by omega⟩ h1

theorem L_num {k : Nat} (w : Wide x) (h1 : 1 ≤ k) (h2 : k ≤ 16) (hr : Room x s a)
    (hl : Leads x pre l q (numEnc k :: s) a Q) : Leads x pre l (op (0x50 + UInt8.ofNat k) :: q) s a Q := by
  obtain ⟨e1, e2, e3, e4, e5⟩ := small_op h1 h2
  have hf : Fits x.cfg (numEnc k :: s) a := by
    rw [w.fits, usage_cons, e2]
    unfold Room at hr
    omega
  exact Leads.cons e5 (st_small e3 e4 e1 hf) hf hl

theorem usage_erase (s : List Bytes) (k : Nat) (v : Bytes) (h : s[k]? = some v) :
    usage (v :: s.eraseIdx k) = usage s := by
  induction s generalizing k with
  | nil => simp at h
  | cons b s ih =>
    cases k with
    | zero =>
      simp only [List.getElem?_cons_zero, Option.some.injEq] at h
      subst h
      rfl
    | succ k =>
      simp only [List.getElem?_cons_succ] at h
      have := ih k h
      rw [List.eraseIdx_cons_succ]
      simp only [usage_cons] at this ⊢
      omega

theorem L_roll {k : Nat} {v : Bytes} (w : Wide x) (h1 : 1 ≤ k) (h2 : k ≤ 16) (hs : s[k]? = some v)
    (hb : s.length < 2 ^ 31) (hr : Room x s a)
    (hl : Leads x pre l q (v :: s.eraseIdx k) a Q) :
    Leads x pre l (op (0x50 + UInt8.ofNat k) :: op 0x7a :: q) s a Q := by
  have hf : Fits x.cfg (v :: s.eraseIdx k) a := by
    rw [w.fits, usage_erase s k v hs]
    unfold Room at hr
    omega
  exact L_num w h1 h2 hr (Leads.cons (by decide) (st_roll hs (w.small (by omega)) hb hf) hf hl)

theorem L_pick {k : Nat} {v : Bytes} (w : Wide x) (h1 : 1 ≤ k) (h2 : k ≤ 16) (hs : s[k]? = some v)
    (hb : s.length < 2 ^ 31) (hr : Room x s a) (hr' : Room x (v :: s) a)
    (hl : Leads x pre l q (v :: s) a Q) :
    Leads x pre l (op (0x50 + UInt8.ofNat k) :: op 0x79 :: q) s a Q :=
  L_num w h1 h2 hr (Leads.cons (by decide) (st_pick hs (w.small (by omega)) hb (hr'.fits w)) (hr'.fits w) hl)

theorem numEnc_inj {y z : Int} (h : numEnc y = numEnc z) : y = z := by
  rw [← numVal_numEnc y, ← numVal_numEnc z, h]

theorem numEnc_length_nat {n z : Nat} (hz : z < 256 ^ n) : (numEnc z).length ≤ n + 1 := by
  have : numVal (leBytes n z ++ [0]) = (z : Int) := by rw [numVal_zero, leNat_leBytes n z hz]
  have h := numEnc_length_le z (leBytes n z) 0 this
  simpa using h

/-- Demanding a size. -/
theorem L_size {k : Nat} {b : Bytes} (w : Wide x) (h1 : 1 ≤ k) (h2 : k ≤ 16) (hb : b.length < 2 ^ 31)
    (hr : Room x (b :: s) a) (hQ : b.length ≠ k → ¬Q)
    (hl : b.length = k → Leads x pre l q (b :: s) a Q) :
    Leads x pre l (op 0x82 :: op (0x50 + UInt8.ofNat k) :: op 0x88 :: q) (b :: s) a Q := by
  have hn : (numEnc b.length).length ≤ 5 := numEnc_length_nat (n := 4) (Nat.lt_of_lt_of_le hb (by decide))
  have hr1 : Room x (b :: s) a := hr
  unfold Room at hr
  have hf : Fits x.cfg (numEnc b.length :: b :: s) a := by rw [w.fits, usage_cons]; omega
  refine Leads.cons (by decide) (st_size hf) hf ?_
  obtain ⟨e1, e2, e3, e4, e5⟩ := small_op h1 h2
  have hf' : Fits x.cfg (numEnc k :: numEnc b.length :: b :: s) a := by
    rw [w.fits, usage_cons, usage_cons, e2]; omega
  refine Leads.cons e5 (st_small e3 e4 e1 hf') hf' ?_
  by_cases hk : b.length = k
  · rw [hk]
    exact Leads.cons (by decide) (fun h => st_equalverify h) (hr1.fits w) (hl hk)
  · refine Leads.stop (fun h => fl_equalverify (fun hc => hk ?_) h) (hQ hk)
    exact Int.ofNat_inj.mp (numEnc_inj hc)

/-- Demanding at most a size. -/
theorem L_size_le {b : Bytes} (w : Wide x) (hb : b.length < 2 ^ 31)
    (hr : Room x (b :: s) a) (hQ : 32 < b.length → ¬Q)
    (hl : b.length ≤ 32 → Leads x pre l q (b :: s) a Q) :
    Leads x pre l (op 0x82 :: pushInt 32 :: op 0xa1 :: op 0x69 :: q) (b :: s) a Q := by
  have hn : (numEnc b.length).length ≤ 5 := numEnc_length_nat (n := 4) (Nat.lt_of_lt_of_le hb (by decide))
  have hr1 : Room x (b :: s) a := hr
  unfold Room at hr
  have hf : Fits x.cfg (numEnc b.length :: b :: s) a := by rw [w.fits, usage_cons]; omega
  refine Leads.cons (by decide) (st_size hf) hf ?_
  have e32 : (numEnc 32).length = 1 := by decide
  have hf' : Fits x.cfg (numEnc 32 :: numEnc b.length :: b :: s) a := by
    rw [w.fits, usage_cons, usage_cons, e32]; omega
  refine Leads.cons (push_head (by decide)) (st_data (by decide) hf') hf' ?_
  have hl1 : (numEnc (if (b.length : Int) ≤ 32 then 1 else 0)).length ≤ 1 := by split <;> decide
  have hf2 : Fits x.cfg (numEnc (if (b.length : Int) ≤ 32 then 1 else 0) :: b :: s) a := by
    rw [w.fits, usage_cons]; omega
  have hw := w.nums
  refine Leads.cons (by decide) (st_binary (f := fun a b => some (if a ≤ b then 1 else 0)) (by decide)
    (by simp [binaryOps]) rfl (num_nat (n := 4) (by omega) (Nat.lt_of_lt_of_le hb (by decide)))
    (w.small (k := 32) (by decide)) hf2) hf2 ?_
  by_cases hk : b.length ≤ 32
  · refine Leads.cons (by decide) (st_verify (by rw [numVal_numEnc, if_pos (by omega)]; decide)) (hr1.fits w) (hl hk)
  · exact Leads.stop (fun _ => fl_verify (by rw [numVal_numEnc, if_neg (by omega)])) (hQ (by omega))

/-- Making a number of a byte string. -/
theorem L_positive {b : Bytes} (w : Wide x) (hb : b.length ≤ 32) (hr : Room x (b :: s) a)
    (hl : Leads x pre l q (numEnc (leNat b) :: s) a Q) :
    Leads x pre l (ensurePositive ++ q) (b :: s) a Q := by
  unfold Room at hr
  have hf : Fits x.cfg ([0x00] :: b :: s) a := by
    rw [w.fits, usage_cons]; simp only [List.length_singleton]; omega
  have hf2 : Fits x.cfg ((b ++ [0x00]) :: s) a := by
    rw [w.fits, usage_cons, List.length_append]
    rw [usage_cons] at hr
    simp only [List.length_singleton]; omega
  have hw := w.nums
  have hn : (numEnc (leNat b)).length ≤ b.length + 1 := numEnc_length_nat (leNat_lt b)
  have hf3 : Fits x.cfg (numEnc (leNat b) :: s) a := by
    rw [w.fits, usage_cons]
    rw [usage_cons] at hr
    omega
  exact Leads.cons (push_head (by decide)) (st_data (by decide) hf) hf
    (Leads.cons (by decide) (st_cat hf2) hf2
      (Leads.cons (by decide) (st_bin2num (numVal_zero b) (num_nat (n := b.length) (by omega) (leNat_lt b)) hf3) hf3 hl))

/-- Comparing two numbers. -/
theorem L_less {y z : Nat} (w : Wide x) (hy : y < 256 ^ 32) (hz : z < 256 ^ 32) (hr : Room x s a)
    (hQ : ¬ y < z → ¬Q) (hl : y < z → Leads x pre l q s a Q) :
    Leads x pre l (op 0x9f :: op 0x69 :: q) (numEnc z :: numEnc y :: s) a Q := by
  have hw := w.nums
  have hr1 := hr
  unfold Room at hr
  have hl1 : (numEnc (if (y : Int) < z then 1 else 0)).length ≤ 1 := by split <;> decide
  have hf2 : Fits x.cfg (numEnc (if (y : Int) < z then 1 else 0) :: s) a := by
    rw [w.fits, usage_cons]; omega
  refine Leads.cons (by decide) (st_binary (f := fun a b => some (if a < b then 1 else 0)) (by decide)
    (by simp [binaryOps]) rfl (num_nat (n := 32) (by omega) hy) (num_nat (n := 32) (by omega) hz) hf2) hf2 ?_
  by_cases hk : y < z
  · refine Leads.cons (by decide) (st_verify (by rw [numVal_numEnc, if_pos (by omega)]; decide)) (hr1.fits w) (hl hk)
  · exact Leads.stop (fun _ => fl_verify (by rw [numVal_numEnc, if_neg (by omega)])) (hQ hk)

/-! ### Expanding the target -/

/-- The bytes of a compact target. -/
def digitBytes (t : Compact) : Bytes := leBytes 3 t.toNat

def expByte (t : Compact) : UInt8 := UInt8.ofNat (t.toNat / 2 ^ 24)

theorem target_bytes (t : Compact) : wfix 4 t = digitBytes t ++ [expByte t] := by
  unfold wfix digitBytes expByte
  have h := t.isLt
  simp only [leBytes, List.cons_append, List.nil_append, Nat.div_div_eq_div_mul]
  rw [Nat.mod_eq_of_lt (a := t.toNat / (256 * 256 * 256)) (by omega)]
  rfl

theorem expByte_toNat (t : Compact) : (expByte t).toNat = t.exponent := by
  unfold expByte Compact.exponent
  have h := t.isLt
  simp
  omega

theorem digitBytes_leNat (t : Compact) : leNat (digitBytes t) = t.toNat % 2 ^ 24 := by
  unfold digitBytes
  simp only [leBytes, leNat]
  simp
  omega

theorem expByte_within (e : UInt8) : (3 ≤ numVal [e] ∧ numVal [e] < 33) ↔ 3 ≤ e.toNat ∧ e.toNat ≤ 32 := by
  revert e
  exact forall_byte _ (by decide +kernel)

theorem expByte_num (e : UInt8) (h : 3 ≤ e.toNat) (h' : e.toNat ≤ 32) : [e] = numEnc e.toNat ∧ numVal [e] = e.toNat := by
  revert e
  exact forall_byte _ (by decide +kernel)

theorem numVal_snoc (d : Bytes) (l : UInt8) : numVal (d ++ [l]) =
    if l &&& 0x80 = 0 then (leNat (d ++ [l &&& 0x7f]) : Int) else -(leNat (d ++ [l &&& 0x7f]) : Int) := by
  unfold numVal
  simp only [List.getLast?_append, List.getLast?_singleton, Option.some_or, List.dropLast_concat]

theorem digits_pos (t : Compact) :
    0 < numVal (digitBytes t) ↔ t.toNat.testBit 23 = false ∧ t.toNat % 2 ^ 23 ≠ 0 := by
  have e : digitBytes t = leBytes 2 t.toNat ++ [UInt8.ofNat (t.toNat / 2 ^ 16)] := by
    unfold digitBytes
    simp only [leBytes, List.cons_append, List.nil_append, Nat.div_div_eq_div_mul]
    congr 3
    apply UInt8.toNat_inj.mp
    simp
  have h1 : leNat (leBytes 2 t.toNat) = t.toNat % 2 ^ 16 := by
    simp only [leBytes, leNat]; simp; omega
  have hb : t.toNat.testBit 23 = (UInt8.ofNat (t.toNat / 2 ^ 16)).toNat.testBit 7 := by
    rw [show (UInt8.ofNat (t.toNat / 2 ^ 16)).toNat = t.toNat / 2 ^ 16 % 2 ^ 8 by simp, Nat.testBit_mod_two_pow,
      Nat.testBit_div_two_pow]
    simp
  have hl : (UInt8.ofNat (t.toNat / 2 ^ 16)).toNat = t.toNat / 2 ^ 16 % 256 := by simp
  rw [e, numVal_snoc, hb]
  generalize hv : UInt8.ofNat (t.toNat / 2 ^ 16) = v at *
  have k1 : ∀ v : UInt8, v &&& 0x80 = 0 ↔ v.toNat.testBit 7 = false := forall_byte _ (by decide +kernel)
  have k2 : ∀ v : UInt8, (v &&& 0x7f).toNat = v.toNat % 128 := forall_byte _ (by decide +kernel)
  have hn : leNat (leBytes 2 t.toNat ++ [v &&& 0x7f]) = t.toNat % 2 ^ 23 := by
    rw [leNat_append, h1]
    simp only [leNat, k2, hl, leBytes_length]
    omega
  rw [hn]
  by_cases h : v &&& 0x80 = 0
  · rw [if_pos h]
    simp only [(k1 v).mp h, true_and]
    omega
  · rw [if_neg h]
    have : ¬ v.toNat.testBit 7 = false := fun hc => h ((k1 v).mpr hc)
    refine ⟨fun hz => ?_, fun hz => absurd hz.1 this⟩
    omega

/-- The bytes left by expanding a target. -/
def expandedBytes (t : Compact) : Bytes :=
  List.replicate (t.exponent - 3) 0 ++ digitBytes t ++ List.replicate (29 - (t.exponent - 3)) 0

theorem leNat_zeros (n : Nat) : leNat (List.replicate n 0) = 0 := by
  induction n with
  | zero => rfl
  | succ n ih => rw [List.replicate_succ]; simp [leNat, ih]

theorem expanded_leNat {t : Compact} (h3 : 3 ≤ t.exponent) (h32 : t.exponent ≤ 32)
    (hp : 0 < numVal (digitBytes t)) : leNat (expandedBytes t) = expand t := by
  obtain ⟨h1, h2⟩ := (digits_pos t).mp hp
  have hd : t.toNat % 2 ^ 24 = t.toNat % 2 ^ 23 := by
    have h := Nat.testBit_eq_decide_div_mod_eq (x := t.toNat) (i := 23)
    rw [h1] at h
    have := of_decide_eq_false h.symm
    omega
  rw [C45_expand, meaning]
  have e : t.toNat / 2 ^ 24 = t.exponent := rfl
  rw [e, pow_split _ h3, ← Nat.mul_assoc, Nat.mul_div_cancel _ (by decide)]
  have hlt : t.toNat % 2 ^ 23 * 256 ^ (t.exponent - 3) < 2 ^ 256 := by
    calc t.toNat % 2 ^ 23 * 256 ^ (t.exponent - 3) < 2 ^ 23 * 256 ^ (t.exponent - 3) :=
          Nat.mul_lt_mul_of_pos_right (Nat.mod_lt _ (by decide)) (Nat.pow_pos (by decide))
      _ ≤ 2 ^ 23 * 256 ^ 29 := Nat.mul_le_mul_left _ (Nat.pow_le_pow_right (by decide) (by omega))
      _ < 2 ^ 256 := by decide
  rw [if_neg (by rw [h1]; simp; omega)]
  unfold expandedBytes
  rw [leNat_append, leNat_append, leNat_zeros, leNat_zeros, digitBytes_leNat, hd, List.length_replicate]
  rw [Nat.mul_comm]
  omega

theorem expand_not_pos {t : Compact} (hp : ¬ 0 < numVal (digitBytes t)) (n : Nat) : ¬ n < expand t := by
  rw [C45_expand]
  rw [digits_pos] at hp
  by_cases h1 : t.toNat.testBit 23 = true
  · rw [if_pos (.inl h1)]; omega
  · have h2 : t.toNat % 2 ^ 23 = 0 := by
      refine Decidable.byContradiction fun h => hp ⟨by simpa using h1, h⟩
    rw [meaning, h2]
    simp

theorem expandedBytes_length {t : Compact} (h32 : t.exponent ≤ 32) : (expandedBytes t).length = 32 := by
  unfold expandedBytes digitBytes
  simp
  omega

/-- Expanding the target: it is refused if its exponent is not from 3 to 32, or if it is
not positive. -/
theorem L_expand {t : Compact} (w : Wide x) (hr : Room x (wfix 4 t :: s) a)
    (hQ : ¬(3 ≤ t.exponent ∧ t.exponent ≤ 32 ∧ 0 < numVal (digitBytes t)) → ¬Q)
    (hl : 3 ≤ t.exponent → t.exponent ≤ 32 → 0 < numVal (digitBytes t) → Leads x pre l q (expandedBytes t :: s) a Q) :
    Leads x pre l (expandTarget ++ q) (wfix 4 t :: s) a Q := by
  have p4 : pushInt 4 = op (0x50 + UInt8.ofNat 4) := by decide +kernel
  have p3 : pushInt 3 = op (0x50 + UInt8.ofNat 3) := by decide +kernel
  have p8 : pushInt 8 = op (0x50 + UInt8.ofNat 8) := by decide +kernel
  have hw := w.nums
  have hr0 := hr
  unfold Room at hr
  rw [usage_cons, wfix_length] at hr
  have hdl : (digitBytes t).length = 3 := by simp [digitBytes]
  have fit : ∀ s' a', usage s' + usage a' ≤ usage s + usage a + 300 → Fits x.cfg s' a' := by
    intro s' a' h
    rw [w.fits]; omega
  have room : ∀ s' a', usage s' + usage a' ≤ usage s + usage a + 36 → Room x s' a' := by
    intro s' a' h
    unfold Room
    omega
  have len : ∀ b : Bytes, (numEnc (numVal b)).length ≤ b.length :=
    fun b => (C81_encoding_shortest (numVal b)).2 b (numVal_numEnc _).symm
  unfold expandTarget
  simp only [List.cons_append, List.nil_append, p4, p3, p8]
  refine L_size w (by decide) (by decide) (by rw [wfix_length]; decide) hr0 (fun h => absurd (wfix_length 4 t) h)
    fun _ => ?_
  rw [target_bytes]
  refine L_num w (by decide) (by decide) (room _ _ (by simp [usage_cons, hdl]; omega)) ?_
  have f1 : Fits x.cfg ([expByte t] :: digitBytes t :: s) a := fit _ _ (by simp [usage_cons, hdl]; omega)
  have hst := st_split (x := x) (s := s) (a := a) (d := digitBytes t) (e := [expByte t])
    (w.small (by omega)) (by simp [hdl]) f1
  rw [hdl] at hst
  refine Leads.cons (by decide) hst f1 ?_
  have f2 : Fits x.cfg ([expByte t] :: [expByte t] :: digitBytes t :: s) a :=
    fit _ _ (by simp [usage_cons, hdl]; omega)
  refine Leads.cons (by decide) (st_dup f2) f2 ?_
  have l1 := len [expByte t]
  simp only [List.length_singleton] at l1
  have f3 : Fits x.cfg (numEnc (numVal [expByte t]) :: [expByte t] :: digitBytes t :: s) a :=
    fit _ _ (by simp [usage_cons, hdl]; omega)
  refine Leads.cons (by decide) (st_bin2num rfl (num_of (by simp; omega)) f3) f3 ?_
  have n3 : (numEnc ((3 : Nat) : Int)).length = 1 := by decide
  have n33 : (numEnc ((33 : Nat) : Int)).length = 1 := by decide
  have n8 : (numEnc ((8 : Nat) : Int)).length = 1 := by decide
  obtain ⟨a1, a2, a3, a4, a5⟩ := small_op (k := 3) (by decide) (by decide)
  obtain ⟨b1, b2, b3, b4, b5⟩ := small_op (k := 8) (by decide) (by decide)
  have f4 : Fits x.cfg (numEnc ((3 : Nat) : Int) :: numEnc (numVal [expByte t]) :: [expByte t] :: digitBytes t :: s) a :=
    fit _ _ (by simp only [usage_cons, hdl, n3, List.length_singleton]; omega)
  refine Leads.cons a5 (st_small a3 a4 a1 f4) f4 ?_
  have f5 : Fits x.cfg (numEnc ((33 : Nat) : Int) :: numEnc ((3 : Nat) : Int) :: numEnc (numVal [expByte t]) ::
      [expByte t] :: digitBytes t :: s) a :=
    fit _ _ (by simp only [usage_cons, hdl, n3, n33, List.length_singleton]; omega)
  refine Leads.cons (push_head (by decide)) (st_data (d := numEnc ((33 : Nat) : Int)) (by decide) f5) f5 ?_
  have l2 : ∀ p : Prop, ∀ _ : Decidable p, (numEnc (if p then 1 else 0)).length ≤ 1 := by
    intro p _; split <;> decide
  have l2' := l2 (((3 : Nat) : Int) ≤ numVal [expByte t] ∧ numVal [expByte t] < ((33 : Nat) : Int)) inferInstance
  have f6 : Fits x.cfg (numEnc (if ((3 : Nat) : Int) ≤ numVal [expByte t] ∧ numVal [expByte t] < ((33 : Nat) : Int) then 1 else 0) ::
      [expByte t] :: digitBytes t :: s) a :=
    fit _ _ (by simp only [usage_cons, hdl, List.length_singleton]; omega)
  refine Leads.cons (by decide) (st_within (num_of (by simp; omega)) (w.small (k := 3) (by decide))
    (w.small (k := 33) (by decide)) f6) f6 ?_
  have hwi := expByte_within (expByte t)
  rw [expByte_toNat] at hwi
  change (((3 : Nat) : Int) ≤ numVal [expByte t] ∧ numVal [expByte t] < ((33 : Nat) : Int)) ↔ _ at hwi
  by_cases hc : 3 ≤ t.exponent ∧ t.exponent ≤ 32
  swap
  · exact Leads.stop (fun _ => fl_verify (by rw [numVal_numEnc, if_neg (fun h => hc (hwi.mp h))]))
      (hQ fun h => hc ⟨h.1, h.2.1⟩)
  obtain ⟨g1, g2⟩ := expByte_num (expByte t) (by rw [expByte_toNat]; exact hc.1) (by rw [expByte_toNat]; exact hc.2)
  rw [expByte_toNat] at g1 g2
  have f7 : Fits x.cfg ([expByte t] :: digitBytes t :: s) a := f1
  refine Leads.cons (by decide) (st_verify (by rw [numVal_numEnc, if_pos (hwi.mpr hc)]; decide)) f7 ?_
  have f8 : Fits x.cfg (digitBytes t :: s) ([expByte t] :: a) :=
    fit _ _ (by simp only [usage_cons, hdl, List.length_singleton]; omega)
  refine Leads.cons (by decide) (st_toalt f8) f8 ?_
  have f9 : Fits x.cfg (digitBytes t :: digitBytes t :: s) ([expByte t] :: a) :=
    fit _ _ (by simp only [usage_cons, hdl, List.length_singleton]; omega)
  refine Leads.cons (by decide) (st_dup f9) f9 ?_
  have l3 := len (digitBytes t)
  rw [hdl] at l3
  have f10 : Fits x.cfg (numEnc (numVal (digitBytes t)) :: digitBytes t :: s) ([expByte t] :: a) :=
    fit _ _ (by simp only [usage_cons, hdl, List.length_singleton]; omega)
  refine Leads.cons (by decide) (st_bin2num rfl (num_of (by omega)) f10) f10 ?_
  have f11 : Fits x.cfg (numEnc 0 :: numEnc (numVal (digitBytes t)) :: digitBytes t :: s) ([expByte t] :: a) :=
    fit _ _ (by simp only [usage_cons, hdl, numEnc_zero, List.length_singleton, List.length_nil]; omega)
  refine Leads.cons (by decide) (st_push (i := op 0x00) (by decide) (by decide) f11) f11 ?_
  have l4 := l2 (0 < numVal (digitBytes t)) inferInstance
  have f12 : Fits x.cfg (numEnc (if 0 < numVal (digitBytes t) then 1 else 0) :: digitBytes t :: s) ([expByte t] :: a) :=
    fit _ _ (by simp only [usage_cons, hdl, List.length_singleton]; omega)
  refine Leads.cons (by decide) (st_binary (o := 0xa0) (f := fun a b => some (if b < a then 1 else 0)) (y := numVal (digitBytes t))
    (z := 0) (by decide) (by simp [binaryOps]) rfl (num_of (by omega)) (w.small (k := 0) (by decide)) f12) f12 ?_
  by_cases hp : 0 < numVal (digitBytes t)
  swap
  · exact Leads.stop (fun _ => fl_verify (by rw [numVal_numEnc, if_neg hp])) (hQ fun h => hp h.2.2)
  refine Leads.cons (by decide) (st_verify (by rw [numVal_numEnc, if_pos hp]; decide)) f8 ?_
  have f13 : Fits x.cfg (List.replicate 29 0 :: digitBytes t :: s) ([expByte t] :: a) :=
    fit _ _ (by simp only [usage_cons, hdl, List.length_singleton, List.length_replicate]; omega)
  refine Leads.cons (push_head (by decide)) (st_data (by decide) f13) f13 ?_
  have f14 : Fits x.cfg ((digitBytes t ++ List.replicate 29 0) :: s) ([expByte t] :: a) :=
    fit _ _ (by simp only [usage_cons, hdl, List.length_singleton, List.length_replicate, List.length_append]; omega)
  refine Leads.cons (by decide) (st_cat f14) f14 ?_
  have f15 : Fits x.cfg ([expByte t] :: (digitBytes t ++ List.replicate 29 0) :: s) a :=
    fit _ _ (by simp only [usage_cons, hdl, List.length_singleton, List.length_replicate, List.length_append]; omega)
  refine Leads.cons (by decide) (st_fromalt f15) f15 ?_
  rw [g1]
  have l5 : (numEnc (t.exponent : Int)).length = 1 := by rw [← g1]; rfl
  have f16 : Fits x.cfg (numEnc ((3 : Nat) : Int) :: numEnc (t.exponent : Int) :: (digitBytes t ++ List.replicate 29 0) :: s) a :=
    fit _ _ (by simp only [usage_cons, hdl, n3, l5, List.length_replicate, List.length_append]; omega)
  refine Leads.cons a5 (st_small a3 a4 a1 f16) f16 ?_
  have l6 : (numEnc ((t.exponent - 3 : Nat) : Int)).length ≤ 2 := numEnc_length_nat (n := 1) (by omega)
  have f17 : Fits x.cfg (numEnc ((t.exponent - 3 : Nat) : Int) :: (digitBytes t ++ List.replicate 29 0) :: s) a :=
    fit _ _ (by simp only [usage_cons, hdl, List.length_replicate, List.length_append]; omega)
  refine Leads.cons (by decide) (st_binary (o := 0x94) (f := fun a b => some (a - b)) (by decide) (by simp [binaryOps])
    (by simp only [Option.some.injEq]; omega) (w.small (k := t.exponent) (by omega)) (w.small (k := 3) (by decide)) f17) f17 ?_
  have f18 : Fits x.cfg (numEnc ((8 : Nat) : Int) :: numEnc ((t.exponent - 3 : Nat) : Int) :: (digitBytes t ++ List.replicate 29 0) :: s) a :=
    fit _ _ (by simp only [usage_cons, hdl, n8, List.length_replicate, List.length_append]; omega)
  refine Leads.cons b5 (st_small b3 b4 b1 f18) f18 ?_
  have l7 : (numEnc ((8 * (t.exponent - 3) : Nat) : Int)).length ≤ 2 := numEnc_length_nat (n := 1) (by omega)
  have f19 : Fits x.cfg (numEnc ((8 * (t.exponent - 3) : Nat) : Int) :: (digitBytes t ++ List.replicate 29 0) :: s) a :=
    fit _ _ (by simp only [usage_cons, hdl, List.length_replicate, List.length_append]; omega)
  refine Leads.cons (by decide) (st_binary (o := 0x95) (f := fun a b => some (a * b)) (by decide) (by simp [binaryOps])
    (by simp only [Option.some.injEq]; push_cast; omega) (w.small (k := t.exponent - 3) (by omega)) (w.small (k := 8) (by decide))
    f19) f19 ?_
  have f20 : Fits x.cfg (expandedBytes t :: s) a :=
    fit _ _ (by simp only [usage_cons, expandedBytes_length hc.2]; omega)
  exact Leads.cons (by decide) (st_rshift (w.small (by omega)) (by omega) (by simp [hdl])) f20 (hl hc.1 hc.2 hp)

end Verif.Boost
