import Verif.Script.PayProps
import Verif.Script.ShiftProps
import Verif.Script.BytesProps
import Verif.Boost.RoundProps

/-
Running a script without branches, one instruction after another, on stacks of arbitrary
byte strings.
-/

namespace Verif.Boost

open Verif Script SM

/-- A machine with the given stacks and operation count, and nothing else. -/
def mAt (c : Cfg) (s a : List Bytes) (k : Nat) : Machine :=
  withStacks c { Machine.init with opCount := k } s a

theorem mAt_wf {c : Cfg} {s a : List Bytes} (h : Fits c s a) (k : Nat) : Wf c (mAt c s a k) :=
  wf_withStacks _ _ _ _ h

theorem mAt_with (c : Cfg) (s a s' a' : List Bytes) (k : Nat) : withStacks c (mAt c s a k) s' a' = mAt c s' a' k :=
  withStacks_withStacks _ _ _ _ _ _

theorem mAt_machineAt (c : Cfg) (s : List Bytes) (k : Nat) : mAt c s [] k = machineAt c s k := by
  unfold mAt machineAt withStacks Machine.init
  cases c.genesisStack <;> simp [usage]

/-- An instruction takes the stacks to others. -/
def Steps (x : Env) (i : Instr) (s a s' a' : List Bytes) : Prop :=
  ∀ ctr k, ctr.next = i.write → k < x.cfg.maxOps →
    ∃ k', k' ≤ k + 1 ∧ step x ctr (mAt x.cfg s a k) = .ok () (mAt x.cfg s' a' k')

/-- An instruction ends the script without success. -/
def Fails (x : Env) (i : Instr) (s a : List Bytes) : Prop :=
  ∀ ctr k, ctr.next = i.write → k < x.cfg.maxOps →
    ∃ st m r, step x ctr (mAt x.cfg s a k) = .stop st m ∧ caught st = some r ∧ r.verified = false

/-- Running the rest `q` of the program `l`, which stands behind `pre`, on the given stacks
ends, and with success exactly if `Q`. -/
def Leads (x : Env) (pre : Bytes) (l q : Program) (s a : List Bytes) (Q : Prop) : Prop :=
  ∀ done k n, done ++ q = l → (∀ j ∈ l, j.Carriable) → (pre ++ l.flatMap Instr.write).length < 2 ^ 31 →
    k + q.length ≤ x.cfg.maxOps → q.length < n → Fits x.cfg s a →
    ∃ st m r, machineRun x n (atP (pre ++ done.flatMap Instr.write) q pre.length) (mAt x.cfg s a k) = some (st, m) ∧
      caught st = some r ∧ (r.verified = true ↔ Q)

theorem Leads.cons {x : Env} {pre : Bytes} {l q : Program} {s a s' a' : List Bytes} {Q : Prop} {i : Instr}
    (hi : i.write.head? ≠ some 0xab) (hs : Fits x.cfg s a → Steps x i s a s' a') (hf : Fits x.cfg s' a')
    (h : Leads x pre l q s' a' Q) : Leads x pre l (i :: q) s a Q := by
  intro done k n hd hc hl hk hn hfit
  simp only [List.length_cons] at hk hn
  obtain ⟨k', hk', hst⟩ := hs hfit (atP (pre ++ done.flatMap Instr.write) (i :: q) pre.length) k rfl (by omega)
  obtain ⟨n', rfl⟩ : ∃ n', n = n' + 1 := ⟨n - 1, by omega⟩
  have e : pre ++ done.flatMap Instr.write ++ (i :: q).flatMap Instr.write = pre ++ l.flatMap Instr.write := by
    rw [← hd, List.flatMap_append, List.append_assoc]
  rw [run_ok hst (fun j hj => hc j (by rw [← hd]; exact List.mem_append.mpr (.inr hj))) (by rw [e]; exact hl) n',
    if_neg hi]
  have := h (done ++ [i]) k' n' (by rw [← hd]; simp) hc hl (by omega) (by omega) hf
  simpa using this

theorem Leads.stop {x : Env} {pre : Bytes} {l q : Program} {s a : List Bytes} {Q : Prop} {i : Instr}
    (hs : Fits x.cfg s a → Fails x i s a) (hQ : ¬Q) : Leads x pre l (i :: q) s a Q := by
  intro done k n hd hc hl hk hn hfit
  simp only [List.length_cons] at hk hn
  obtain ⟨st, m, r, h1, h2, h3⟩ :=
    hs hfit (atP (pre ++ done.flatMap Instr.write) (i :: q) pre.length) k rfl (by omega)
  obtain ⟨n', rfl⟩ : ∃ n', n = n' + 1 := ⟨n - 1, by omega⟩
  exact ⟨st, m, r, run_stop h1 n', h2, by simp [h3, hQ]⟩

theorem Leads.iff {x : Env} {pre : Bytes} {l q : Program} {s a : List Bytes} {Q Q' : Prop}
    (h : Leads x pre l q s a Q) (hQ : Q ↔ Q') : Leads x pre l q s a Q' := by
  rw [← propext hQ]
  exact h

/-! ### Instructions -/

theorem op_write {o : Op} (h : 0x60 < o) : (op o).write = [o] := by
  have : ∀ o : Op, 0x60 < o → 78 < o.toNat := forall_byte _ (by decide +kernel)
  exact writes_op o (this o h)

theorem op_step {x : Env} {o : Op} (h : 0x60 < o) {ctr : Counter} {s a : List Bytes} {k : Nat}
    (hn : ctr.next = (op o).write) (hk : k < x.cfg.maxOps) :
    step x ctr (mAt x.cfg s a k) = execOp x ctr o (mAt x.cfg s a (k + 1)) := by
  rw [op_write h] at hn
  exact C23_step x ctr o [] _ hn h (by simp [mAt, withStacks, Machine.init]) hk

theorem not_verified_script (e : ScriptError) : ∃ r, caught (.script e) = some r ∧ r.verified = false := by
  refine ⟨_, rfl, ?_⟩
  cases e <;> rfl

theorem Steps.of {x : Env} {o : Op} (h : 0x60 < o) {s a s' a' : List Bytes}
    (hs : ∀ ctr k, execOp x ctr o (mAt x.cfg s a k) = .ok () (mAt x.cfg s' a' k)) : Steps x (op o) s a s' a' :=
  fun ctr k hn hk => ⟨k + 1, Nat.le_refl _, by rw [op_step h hn hk]; exact hs ctr (k + 1)⟩

theorem Fails.of {x : Env} {o : Op} (h : 0x60 < o) {s a : List Bytes}
    (hs : ∀ ctr k, ∃ st m r, execOp x ctr o (mAt x.cfg s a k) = .stop st m ∧ caught st = some r ∧ r.verified = false) :
    Fails x (op o) s a :=
  fun ctr k hn hk => by rw [op_step h hn hk]; exact hs ctr (k + 1)

theorem Steps.performs {x : Env} {o : Op} {e : ScriptError}
    {spec : List Bytes → List Bytes → Option (List Bytes × List Bytes)} (h : 0x60 < o)
    (hp : ∀ ctr, Performs x.cfg (execOp x ctr o) e spec) {s a s' a' : List Bytes} (hs : spec s a = some (s', a'))
    (hf' : Fits x.cfg s' a') (hf : Fits x.cfg s a) : Steps x (op o) s a s' a' := by
  refine Steps.of h fun ctr k => ?_
  have := ((hp ctr (mAt x.cfg s a k) (mAt_wf hf k)).2 s' a' hs).1 hf'
  rw [this, mAt_with]

variable {x : Env} {s a : List Bytes}

theorem st_dup {b : Bytes} (hf' : Fits x.cfg (b :: b :: s) a) (hf : Fits x.cfg (b :: s) a) :
    Steps x (op 0x76) (b :: s) a (b :: b :: s) a := .performs (by decide) (C23_dup x) rfl hf' hf

theorem st_drop {b : Bytes} (hf' : Fits x.cfg s a) (hf : Fits x.cfg (b :: s) a) :
    Steps x (op 0x75) (b :: s) a s a := .performs (by decide) (C23_drop x) rfl hf' hf

theorem st_swap {b c : Bytes} (hf' : Fits x.cfg (c :: b :: s) a) (hf : Fits x.cfg (b :: c :: s) a) :
    Steps x (op 0x7c) (b :: c :: s) a (c :: b :: s) a := .performs (by decide) (C23_swap x) rfl hf' hf

theorem st_toalt {b : Bytes} (hf' : Fits x.cfg s (b :: a)) (hf : Fits x.cfg (b :: s) a) :
    Steps x (op 0x6b) (b :: s) a s (b :: a) := .performs (by decide) (C23_toaltstack x) rfl hf' hf

theorem st_fromalt {b : Bytes} (hf' : Fits x.cfg (b :: s) a) (hf : Fits x.cfg s (b :: a)) :
    Steps x (op 0x6c) s (b :: a) (b :: s) a := .performs (by decide) (C23_fromaltstack x) rfl hf' hf

theorem st_cat {b c : Bytes} (hf' : Fits x.cfg ((c ++ b) :: s) a) (hf : Fits x.cfg (b :: c :: s) a) :
    Steps x (op 0x7e) (b :: c :: s) a ((c ++ b) :: s) a := .performs (by decide) (C26_cat x) rfl hf' hf

theorem st_size {b : Bytes} (hf' : Fits x.cfg (numEnc b.length :: b :: s) a) (hf : Fits x.cfg (b :: s) a) :
    Steps x (op 0x82) (b :: s) a (numEnc b.length :: b :: s) a := .performs (by decide) (C82_size x) rfl hf' hf

theorem st_hash256 {b : Bytes} (hf' : Fits x.cfg (x.hash .hash256 b :: s) a) (hf : Fits x.cfg (b :: s) a) :
    Steps x (op 0xaa) (b :: s) a (x.hash .hash256 b :: s) a :=
  .performs (by decide) (fun ctr => C82_hash x ctr 0xaa .hash256 (by simp [hashSpec])) rfl hf' hf

theorem st_hash160 {b : Bytes} (hf' : Fits x.cfg (x.hash .hash160 b :: s) a) (hf : Fits x.cfg (b :: s) a) :
    Steps x (op 0xa9) (b :: s) a (x.hash .hash160 b :: s) a :=
  .performs (by decide) (fun ctr => C82_hash x ctr 0xa9 .hash160 (by simp [hashSpec])) rfl hf' hf

theorem st_push {i : Instr} (hp : isPush i.op = true) (hc : i.Carriable) (hf' : Fits x.cfg (i.pushData :: s) a)
    (hf : Fits x.cfg s a) : Steps x i s a (i.pushData :: s) a := by
  intro ctr k hn hk
  refine ⟨k, by omega, ?_⟩
  rw [step_pushes x ctr i _ hn hp hc (mAt_wf hf k) (by simp [mAt, withStacks, Machine.init]) hf']
  exact congrArg (Res.ok ()) (mAt_with _ _ _ _ _ _)

/-- Pushing a byte string. -/
theorem st_data {d : Bytes} (hd : d.length < 2 ^ 31) (hf' : Fits x.cfg (d :: s) a)
    (hf : Fits x.cfg s a) : Steps x (Instr.push d) s a (d :: s) a := by
  have := st_push (x := x) (s := s) (a := a) (push_isPush' hd) (push_carriable d hd)
    (by rw [push_pushData d hd]; exact hf') hf
  rw [push_pushData d hd] at this
  exact this

/-- Pushing a small number. -/
theorem st_small {o : Op} {d : Bytes} (ho : 78 < o.toNat) (hp : isPush o = true) (hd : (op o).pushData = d)
    (hf' : Fits x.cfg (d :: s) a) (hf : Fits x.cfg s a) : Steps x (op o) s a (d :: s) a := by
  have := st_push (x := x) (s := s) (a := a) (i := op o) hp (op_carriable o ho) (by rw [hd]; exact hf') hf
  rw [hd] at this
  exact this

/-- A number is an operand. -/
def Num (c : Cfg) (z : Int) : Prop := (numEnc z).length ≤ c.maxNumLen

theorem operand_numEnc {c : Cfg} {z : Int} (h : Num c z) : Operand c (numEnc z) := ⟨h, fun _ => shortest_numEnc z⟩

theorem canonical {r : Bytes} {z : Int} (h : numVal r = z) (hs : Shortest r) : r = numEnc z := by
  have := (C81_minimal_iff r).mpr hs
  unfold isMinimalNum at this
  rw [beq_iff_eq] at this
  rw [this, h]

theorem st_binary {o : Op} {f : Int → Int → Option Int} {y z w : Int} (ho : 0x60 < o) (hof : (o, f) ∈ binaryOps)
    (hz : f y z = some w) (hy : Num x.cfg y) (hz' : Num x.cfg z)
    (hf' : Fits x.cfg (numEnc w :: s) a) (hf : Fits x.cfg (numEnc z :: numEnc y :: s) a) :
    Steps x (op o) (numEnc z :: numEnc y :: s) a (numEnc w :: s) a := by
  refine Steps.of ho fun ctr k => ?_
  obtain ⟨r, h1, h2, h3⟩ := (((C81_binary x ctr _ (mAt_wf hf k) o f hof).2 (numEnc y) (numEnc z) s rfl).2
    (operand_numEnc hy) (operand_numEnc hz')).2 w (by rw [numVal_numEnc, numVal_numEnc]; exact hz)
  have : r = numEnc w := by
    rcases h2 with h2 | h2 | h2
    · exact canonical h1 h2
    · rw [h2, numVal_numEnc] at h1; rw [h2, h1]
    · rw [h2, numVal_numEnc] at h1; rw [h2, h1]
  subst this
  exact (h3.1 hf').trans (congrArg (Res.ok ()) (mAt_with _ _ _ _ _ _))

theorem st_within {v lo hi : Int} (h1 : Num x.cfg v) (h2 : Num x.cfg lo) (h3 : Num x.cfg hi)
    (hf' : Fits x.cfg (numEnc (if lo ≤ v ∧ v < hi then 1 else 0) :: s) a)
    (hf : Fits x.cfg (numEnc hi :: numEnc lo :: numEnc v :: s) a) :
    Steps x (op 0xa5) (numEnc hi :: numEnc lo :: numEnc v :: s) a
      (numEnc (if lo ≤ v ∧ v < hi then 1 else 0) :: s) a := by
  refine Steps.of (by decide) fun ctr k => ?_
  obtain ⟨r, e1, e2, e3⟩ := ((C81_within x ctr _ (mAt_wf hf k)).2 (numEnc v) (numEnc lo) (numEnc hi) s rfl).2
    (operand_numEnc h1) (operand_numEnc h2) (operand_numEnc h3)
  rw [numVal_numEnc, numVal_numEnc, numVal_numEnc] at e1
  rw [canonical e1 e2] at e3
  exact (e3.1 hf').trans (congrArg (Res.ok ()) (mAt_with _ _ _ _ _ _))

theorem st_bin2num {b : Bytes} {z : Int} (hz : numVal b = z) (hn : Num x.cfg z)
    (hf' : Fits x.cfg (numEnc z :: s) a) (hf : Fits x.cfg (b :: s) a) :
    Steps x (op 0x81) (b :: s) a (numEnc z :: s) a := by
  refine Steps.of (by decide) fun ctr k => ?_
  obtain ⟨r, e1, e2, -, e3⟩ := (C83_bin2num x ctr _ (mAt_wf hf k)).2 b s rfl
  rw [canonical (e1.trans hz) e2] at e3
  exact ((e3 hn).1 hf').trans (congrArg (Res.ok ()) (mAt_with _ _ _ _ _ _))

theorem st_verify {b : Bytes} (hb : numVal b ≠ 0) (hf : Fits x.cfg (b :: s) a) :
    Steps x (op 0x69) (b :: s) a s a := by
  refine Steps.of (by decide) fun ctr k => ?_
  exact (C21_verify x ctr _ (mAt_wf hf k) b s rfl hb).trans (congrArg (Res.ok ()) (mAt_with _ _ _ _ _ _))

theorem fl_verify {b : Bytes} (hb : numVal b = 0) : Fails x (op 0x69) (b :: s) a := by
  refine Fails.of (by decide) fun ctr k => ?_
  refine ⟨.ret (.ofError .verify), mAt x.cfg (b :: s) a k, _, ?_, rfl, rfl⟩
  rw [show execOp x ctr 0x69 = opVerify x.cfg from rfl]
  unfold opVerify
  rw [need_bind_pass (by simp [mAt]), top_bind (-1) 0 (by omega) (by rfl)]
  rw [if_neg (fun h => (nonzero_iff b).mp h hb)]
  rfl

theorem st_equalverify {b : Bytes} (hf : Fits x.cfg (b :: b :: s) a) :
    Steps x (op 0x88) (b :: b :: s) a s a := by
  refine Steps.of (by decide) fun ctr k => ?_
  exact (C21_equalverify x ctr _ (mAt_wf hf k) b s rfl).trans (congrArg (Res.ok ()) (mAt_with _ _ _ _ _ _))

theorem fl_equalverify {b c : Bytes} (hb : c ≠ b) (hf : Fits x.cfg (b :: c :: s) a) :
    Fails x (op 0x88) (b :: c :: s) a := by
  refine Fails.of (by decide) fun ctr k => ?_
  obtain ⟨m', h⟩ := C82_equalverify x ctr _ (mAt_wf hf k) c b s rfl hb
  exact ⟨_, m', _, h, rfl, rfl⟩

theorem num_of {c : Cfg} {b : Bytes} (h : b.length ≤ c.maxNumLen) : Num c (numVal b) :=
  Nat.le_trans ((C81_encoding_shortest (numVal b)).2 b (numVal_numEnc _).symm) h

theorem numVal_zero (b : Bytes) : numVal (b ++ [0]) = leNat b := by
  unfold numVal
  simp [leNat_append, leNat]

theorem num_nat {c : Cfg} {n z : Nat} (h : n + 1 ≤ c.maxNumLen) (hz : z < 256 ^ n) : Num c z := by
  have : numVal (leBytes n z ++ [0]) = (z : Int) := by rw [numVal_zero, leNat_leBytes n z hz]
  rw [← this]
  exact num_of (by simpa using h)

theorem numEnc_not_negative_zero (z : Int) : ¬(numVal (numEnc z) = 0 ∧ leNat (numEnc z) ≠ 0) := by
  rintro ⟨h1, h2⟩
  rw [numVal_numEnc] at h1
  subst h1
  exact h2 rfl

theorem st_roll {k : Nat} {v : Bytes} (hs : s[k]? = some v) (hk : Num x.cfg k)
    (hb : s.length < 2 ^ 31)
    (hf' : Fits x.cfg (v :: s.eraseIdx k) a) (hf : Fits x.cfg (numEnc k :: s) a) :
    Steps x (op 0x7a) (numEnc k :: s) a (v :: s.eraseIdx k) a := by
  refine Steps.of (by decide) fun ctr j => ?_
  have hne : s ≠ [] := by rintro rfl; simp at hs
  have := (((C23_pick_roll_partial x ctr _ (mAt_wf hf j) (numEnc k) s rfl hk (fun _ => isMinimalNum_numEnc _) hne
    (numEnc_not_negative_zero _) hb).2 k (numVal_numEnc _) v hs).2).1 hf'
  exact this.trans (congrArg (Res.ok ()) (mAt_with _ _ _ _ _ _))

theorem st_pick {k : Nat} {v : Bytes} (hs : s[k]? = some v) (hk : Num x.cfg k)
    (hb : s.length < 2 ^ 31)
    (hf' : Fits x.cfg (v :: s) a) (hf : Fits x.cfg (numEnc k :: s) a) :
    Steps x (op 0x79) (numEnc k :: s) a (v :: s) a := by
  refine Steps.of (by decide) fun ctr j => ?_
  have hne : s ≠ [] := by rintro rfl; simp at hs
  have := (((C23_pick_roll_partial x ctr _ (mAt_wf hf j) (numEnc k) s rfl hk (fun _ => isMinimalNum_numEnc _) hne
    (numEnc_not_negative_zero _) hb).2 k (numVal_numEnc _) v hs).1).1 hf'
  exact this.trans (congrArg (Res.ok ()) (mAt_with _ _ _ _ _ _))

theorem st_split {d e : Bytes} (hl : Num x.cfg d.length) (hd : (d ++ e).length < 2 ^ 32)
    (hf' : Fits x.cfg (e :: d :: s) a) (hf : Fits x.cfg (numEnc d.length :: (d ++ e) :: s) a) :
    Steps x (op 0x7f) (numEnc d.length :: (d ++ e) :: s) a (e :: d :: s) a := by
  refine Steps.of (by decide) fun ctr j => ?_
  have := ((C26_split_partial x ctr _ (mAt_wf hf j) (numEnc d.length) (d ++ e) s rfl hl
    (fun _ => isMinimalNum_numEnc _) (numEnc_not_negative_zero _) hd).2 d e rfl (numVal_numEnc _)).1 hf'
  exact this.trans (congrArg (Res.ok ()) (mAt_with _ _ _ _ _ _))

/-! ### Bits -/

theorem bitAt_ext {b c : Bytes} (hl : b.length = c.length) (h : ∀ i < 8 * b.length, bitAt b i = bitAt c i) : b = c := by
  apply List.ext_getElem hl
  intro n h1 h2
  apply UInt8.toNat_inj.mp
  apply Nat.eq_of_testBit_eq
  intro j
  by_cases hj : j < 8
  · have := h (8 * n + j) (by omega)
    unfold bitAt at this
    rw [show (8 * n + j) / 8 = n by omega, show (8 * n + j) % 8 = j by omega] at this
    simpa [h1, h2] using this
  · rw [Nat.testBit_lt_two_pow, Nat.testBit_lt_two_pow]
    · exact Nat.lt_of_lt_of_le (UInt8.toNat_lt _) (Nat.pow_le_pow_right (by decide) (by omega))
    · exact Nat.lt_of_lt_of_le (UInt8.toNat_lt _) (Nat.pow_le_pow_right (by decide) (by omega))

theorem bitAt_leBytes (k n i : Nat) (hi : i < 8 * k) : bitAt (leBytes k n) i = n.testBit i := by
  induction k generalizing n i with
  | zero => omega
  | succ k ih =>
    unfold leBytes
    by_cases h : i < 8
    · unfold bitAt
      rw [show i / 8 = 0 by omega, show i % 8 = i by omega]
      simp only [List.getD_cons_zero]
      rw [show (UInt8.ofNat (n % 256)).toNat = n % 2 ^ 8 by simp, Nat.testBit_mod_two_pow]
      simp [h]
    · have := ih (n / 256) (i - 8) (by omega)
      unfold bitAt at this ⊢
      rw [show i / 8 = (i - 8) / 8 + 1 by omega, show i % 8 = (i - 8) % 8 by omega, List.getD_cons_succ, this]
      rw [show 256 = 2 ^ 8 from rfl, Nat.testBit_div_two_pow]
      congr 1
      omega

theorem bitAt_wfix (v : BitVec 32) (i : Nat) (hi : i < 32) : bitAt (wfix 4 v) i = v.getLsbD i :=
  bitAt_leBytes 4 _ i hi

theorem wfix_fromLE {b : Bytes} {w : Nat} (hw : w = 8 * b.length) : wfix b.length (fromLE w b) = b := by
  unfold wfix fromLE
  have h := leNat_lt b
  rw [BitVec.toNat_ofNat, Nat.mod_eq_of_lt, leBytes_leNat]
  rw [hw, Nat.pow_mul]
  exact h

theorem st_and {v w : BitVec 32} (hf : Fits x.cfg (wfix 4 w :: wfix 4 v :: s) a) :
    Steps x (op 0x84) (wfix 4 w :: wfix 4 v :: s) a (wfix 4 (v &&& w) :: s) a := by
  refine Steps.of (by decide) fun ctr k => ?_
  obtain ⟨r, h1, h2, h3⟩ := ((C82_bitwise x ctr _ (mAt_wf hf k) 0x84 (fun p q => p && q) (by simp [bitSpec])).2 (wfix 4 v) (wfix 4 w) s rfl).2
    (by rw [wfix_length, wfix_length])
  have : r = wfix 4 (v &&& w) := by
    rw [wfix_length] at h1 h2
    refine bitAt_ext (by rw [h1, wfix_length]) fun i hi => ?_
    rw [h1] at hi
    rw [h2 i hi, bitAt_wfix _ i hi, bitAt_wfix _ i hi, bitAt_wfix _ i hi, BitVec.getLsbD_and]
  rw [h3, this]
  exact (congrArg (Res.ok ()) (mAt_with _ _ _ _ _ _))

theorem st_or {v w : BitVec 32} (hf : Fits x.cfg (wfix 4 w :: wfix 4 v :: s) a) :
    Steps x (op 0x85) (wfix 4 w :: wfix 4 v :: s) a (wfix 4 (v ||| w) :: s) a := by
  refine Steps.of (by decide) fun ctr k => ?_
  obtain ⟨r, h1, h2, h3⟩ := ((C82_bitwise x ctr _ (mAt_wf hf k) 0x85 (fun p q => p || q) (by simp [bitSpec])).2 (wfix 4 v) (wfix 4 w) s rfl).2
    (by rw [wfix_length, wfix_length])
  have : r = wfix 4 (v ||| w) := by
    rw [wfix_length] at h1 h2
    refine bitAt_ext (by rw [h1, wfix_length]) fun i hi => ?_
    rw [h1] at hi
    rw [h2 i hi, bitAt_wfix _ i hi, bitAt_wfix _ i hi, bitAt_wfix _ i hi, BitVec.getLsbD_or]
  rw [h3, this]
  exact (congrArg (Res.ok ()) (mAt_with _ _ _ _ _ _))

theorem st_invert {v : BitVec 32} (hf : Fits x.cfg (wfix 4 v :: s) a) :
    Steps x (op 0x83) (wfix 4 v :: s) a (wfix 4 (~~~ v) :: s) a := by
  refine Steps.of (by decide) fun ctr k => ?_
  obtain ⟨r, h1, h2, h3⟩ := (C82_invert x ctr _ (mAt_wf hf k)).2 (wfix 4 v) s rfl
  have : r = wfix 4 (~~~ v) := by
    rw [wfix_length] at h1 h2
    refine bitAt_ext (by rw [h1, wfix_length]) fun i hi => ?_
    rw [h1] at hi
    rw [h2 i hi, bitAt_wfix _ i hi, bitAt_wfix _ i hi, BitVec.getLsbD_not]
    simp; omega
  rw [h3, this]
  exact (congrArg (Res.ok ()) (mAt_with _ _ _ _ _ _))

theorem fl_and {b c : Bytes} (hl : c.length ≠ b.length) (hf : Fits x.cfg (b :: c :: s) a) :
    Fails x (op 0x84) (b :: c :: s) a := by
  refine Fails.of (by decide) fun ctr k => ?_
  exact ⟨_, _, _, ((C82_bitwise x ctr _ (mAt_wf hf k) 0x84 (fun p q => p && q) (by simp [bitSpec])).2 c b s rfl).1 hl, rfl, rfl⟩

/-! ### Shifts -/

theorem bitOf_ext {b c : Bytes} (hl : b.length = c.length) (h : ∀ i < 8 * b.length, bitOf b i = bitOf c i) : b = c := by
  apply bitAt_ext hl
  intro i hi
  have := h (8 * (i / 8) + (7 - i % 8)) (by omega)
  unfold bitOf at this
  unfold bitAt
  rw [show (8 * (i / 8) + (7 - i % 8)) / 8 = i / 8 by omega,
    show 7 - (8 * (i / 8) + (7 - i % 8)) % 8 = i % 8 by omega] at this
  exact this

theorem bitOf_zeros (n i : Nat) : bitOf (List.replicate n 0) i = false := by
  unfold bitOf
  rw [show (List.replicate n (0 : UInt8)).getD (i / 8) 0 = 0 by
    rw [List.getD_eq_getElem?_getD, List.getElem?_replicate]; split <;> rfl]
  simp

/-- Moving whole bytes to the right, the last ones being zero. -/
theorem rightShift_bytes {d y : Bytes} {j n : Nat} (hj : j ≤ n)
    (h : IsRightShift (8 * j) (d ++ List.replicate n 0) y) :
    y = List.replicate j 0 ++ d ++ List.replicate (n - j) 0 := by
  obtain ⟨h1, h2⟩ := h
  have hl : y.length = (List.replicate j 0 ++ d ++ List.replicate (n - j) 0 : Bytes).length := by
    rw [h1]; simp; omega
  refine bitOf_ext hl fun i hi => ?_
  rw [h2 i (by rw [← h1]; exact hi)]
  unfold bitOf
  by_cases hc : 8 * j ≤ i
  · simp only [hc, decide_true, Bool.true_and]
    rw [show (i - 8 * j) / 8 = i / 8 - j by omega, show (i - 8 * j) % 8 = i % 8 by omega]
    congr 2
    rw [List.append_assoc]
    simp only [List.getD_eq_getElem?_getD]
    rw [List.getElem?_append_right (l₁ := List.replicate j 0) (by simp; omega), List.length_replicate]
    rw [List.getElem?_append, List.getElem?_append]
    split
    · rfl
    · rw [List.getElem?_replicate, List.getElem?_replicate]
      split <;> split <;> rfl
  · simp only [hc, decide_false, Bool.false_and]
    rw [List.append_assoc, List.getD_eq_getElem?_getD, List.getElem?_append_left (by simp; omega),
      List.getElem?_replicate]
    split <;> simp

theorem st_rshift {d : Bytes} {j n : Nat} (hn : Num x.cfg (8 * j : Nat)) (hj : j ≤ n)
    (hl : (d ++ List.replicate n (0 : UInt8)).length < 2 ^ 62)
    (hf : Fits x.cfg (numEnc (8 * j : Nat) :: (d ++ List.replicate n 0) :: s) a) :
    Steps x (op 0x99) (numEnc (8 * j : Nat) :: (d ++ List.replicate n 0) :: s) a
      ((List.replicate j 0 ++ d ++ List.replicate (n - j) 0) :: s) a := by
  refine Steps.of (by decide) fun ctr k => ?_
  obtain ⟨y, h1, h2⟩ := C25_shift_partial x ctr false _ (mAt_wf hf k) (numEnc (8 * j : Nat))
    (d ++ List.replicate n 0) s rfl hn (fun _ => isMinimalNum_numEnc _) (8 * j) (numVal_numEnc _)
    (numEnc_not_negative_zero _) hl
  rw [if_neg (by simp)] at h2
  rw [rightShift_bytes hj h2] at h1
  exact h1.trans (congrArg (Res.ok ()) (mAt_with _ _ _ _ _ _))

/-! ### The end -/

/-- Checking the signature and ending. -/
theorem Leads.checksig {pre : Bytes} {l : Program} {pub sig : Bytes} {d : Doc} (hd : x.doc = some d)
    (hp : ∀ i ∈ l, Plain x.cfg i) :
    Leads x pre l [op 0xac] [pub, sig] []
      ((verdict (d.verifySig sig pub (cleanupScriptCode l sig) x.cfg.flags)).verified = true) := by
  intro done k n hdone hc hl hk hn hfit
  simp only [List.length_cons, List.length_nil] at hk hn
  obtain ⟨n', rfl⟩ : ∃ n', n = n' + 2 := ⟨n - 2, by omega⟩
  generalize hr : d.verifySig sig pub (cleanupScriptCode l sig) x.cfg.flags = r
  have hs : step x (atP (pre ++ done.flatMap Instr.write) [op 0xac] pre.length) (mAt x.cfg [pub, sig] [] k) =
      if r.error ≠ .ok then .stop (.ret (.ofError r.error)) (machineAt x.cfg [pub, sig] (k + 1))
      else .ok () (machineAt x.cfg [numBool r.success] (k + 1)) := by
    rw [op_step (o := 0xac) (by decide) rfl (by omega), mAt_machineAt,
      checkSig_at x _ d hd l (toLastSep pre l done [op 0xac] hdone.symm hp hc) sig pub (k + 1) hfit]
    simp only [hr]
  have e : pre ++ done.flatMap Instr.write ++ [op 0xac].flatMap Instr.write = pre ++ l.flatMap Instr.write := by
    rw [← hdone, List.flatMap_append, List.append_assoc]
  by_cases he : r.error = .ok
  · rw [if_neg (not_not.mpr he)] at hs
    rw [run_ok hs (fun j hj => hc j (by rw [← hdone]; exact List.mem_append.mpr (.inr hj))) (by rw [e]; exact hl)]
    refine ⟨_, _, _, run_stop (end_at x _ rfl r.success _) n', rfl, ?_⟩
    simp [verdict, he]
  · rw [if_pos he] at hs
    refine ⟨_, _, _, run_stop hs (n' + 1), rfl, ?_⟩
    simp [verdict, he, Result.verified, Result.ofError]

end Verif.Boost
