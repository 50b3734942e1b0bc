import Verif.Sig.AddressProps
import Verif.Script.VerifyProps

/-
C196: a payment that is locked until a time, by CHECKLOCKTIMEVERIFY or CHECKSEQUENCEVERIFY at the beginning of its script.
-/

namespace Verif.Script

open Verif SM

/-! ### Specification -/

/-- A script that begins with a number and the opcode that checks it. -/
structure Locked (op : Op) (lx : Bytes) (t : Instr) (k : Nat) (l : Program) : Prop where
  reads : decompileS lx = .ok (t :: ⟨op, []⟩ :: l)
  pushes : isPush t.op = true
  value : numVal t.pushData = k
  pos : 0 < k
  small : k < 2 ^ 32

/-! ### Lemmas -/

theorem readU32_small {b : Bytes} {k : Nat} (hv : numVal b = k) (h0 : 0 < k) (hk : k < 2 ^ 32) : readU32 b = k := by
  have hle : leNat b = k := by
    rcases leNat_of_nonneg b (by omega) with h | ⟨h, _⟩ <;> omega
  rw [readU32_eq, hle]
  exact Nat.mod_eq_of_lt hk

theorem push_isP2SH {t : Instr} {l : Program} {lx : Bytes} (h : decompileS lx = .ok (t :: l)) (ht : isPush t.op = true)
    (hl : lx.length < 2 ^ 31) : isP2SH (t :: l) = .ok false := by
  obtain ⟨h1, h2⟩ := decompileS_ok h
  unfold isP2SH
  rw [compile_ok _ h2 (flatMap_data_lt _ h2 (by rw [← h1]; exact hl))]
  simp only [Except.map, Except.ok.injEq]
  obtain ⟨r, hw⟩ := write_head t
  have hne : t.op ≠ 0xa9 := by
    intro h
    rw [h] at ht
    exact absurd ht (by decide)
  unfold isP2SHBytes
  rw [List.flatMap_cons, hw]
  simp [hne]

theorem drop_inv {c : Cfg} {m m' : Machine} (h : opDrop c m = .ok () m') : ∃ b, m.stack = b :: m'.stack := by
  unfold opDrop at h
  by_cases hl : m.stack.length < 1
  · rw [need_bind_fail hl] at h; cases h
  · rw [need_bind_pass (by omega)] at h
    exact pop_inv h

/-- What is known of a run when the first two instructions of a locked script are done. -/
theorem locked_run {x : Env} {op : Op} (hop : Calm op) (hsep : op ≠ 0xab) {ux lx : Bytes} {t : Instr} {k : Nat} {l : Program}
    (hL : Locked op lx t k l) (ho : OnlyPushes x.cfg ux)
    (hlen : 2 * ux.length + lx.length + 2 < 2 ^ 31) {n : Nat} (hn : 2 * ux.length + lx.length + 2 < n)
    (hv : ∃ r, evaluate x n ux lx = .done r ∧ r.verified = true) :
    ∃ u r n m0 m m' ctr, decompileS ux = .ok u ∧ isPushProgram u = true ∧ r.verified = true ∧ m.exec = [] ∧
      m0.stack = t.pushData :: (u.map Instr.pushData).reverse ∧ execOp x ctr op m0 = .ok () m ∧
      machineRun x n (atP ((ux ++ [0xab]) ++ [t, ⟨op, []⟩].flatMap Instr.write) l (ux ++ [0xab]).length) m =
        some (.ret r, m') := by
  obtain ⟨hlx, hcar⟩ := decompileS_ok hL.reads
  obtain ⟨u, r, n1, m, m', hu, pu, _, hr, he, hst, hrun⟩ := lock_run hL.reads
    (.inr (push_isP2SH hL.reads hL.pushes (by omega))) ho hlen hn hv
  generalize hpre : ux ++ [0xab] = pre at hrun ⊢
  have hbig : (pre ++ (t :: ⟨op, []⟩ :: l).flatMap Instr.write).length < 2 ^ 31 := by
    rw [← hlx, ← hpre]; simp; omega
  generalize pre.length = sep at hrun ⊢
  have hp := hL.pushes
  obtain ⟨n2, m1, m2, a1, a2, a3, a4⟩ := run_inv_sep hcar hbig (push_calm _ hp) he hrun hr
  rw [if_neg (by intro h; rw [h] at hp; exact absurd hp (by decide))] at a4
  rw [exec_push x _ t rfl hp (hcar t (by simp))] at a2
  have a2 := push_inv a2
  obtain ⟨n3, m3, m4, b1, b2, b3, b4⟩ := run_inv_sep (fun i hi => hcar i (by simp at hi ⊢; tauto))
    (by simpa using hbig) hop a3 a4 hr
  rw [if_neg (by simpa using hsep)] at b4
  refine ⟨u, r, n3, m3, m4, m', _, hu, pu, hr, b3, by rw [b1, a2, a1, hst], b2, ?_⟩
  simpa using b4

theorem cltv_passed {x : Env} {d : Doc} (hd : x.doc = some d) (hf : x.cfg.checkLocktime = false) {ctr : Counter} {m m' : Machine}
    (h : execOp x ctr 0xb1 m = .ok () m') {b : Bytes} {s : List Bytes} (hs : m.stack = b :: s) :
    m' = m ∧ d.checkLocktime (readU32 b) = true := by
  obtain ⟨h1, h2⟩ := C22_locktime_enforced_when_unset_partial x ctr m d hf hd
  by_cases hq : ∃ b s, m.stack = b :: s ∧ b.length ≤ 5 ∧ (x.cfg.minimal = true → isMinimalNum b = true) ∧
      0 ≤ numVal b ∧ d.checkLocktime (readU32 b) = true
  · obtain ⟨b', s', e, q1, q2, q3, q4⟩ := hq
    rw [h1 b' s' e q1 q2 q3 q4] at h
    rw [hs] at e
    cases e
    cases h
    exact ⟨rfl, q4⟩
  · obtain ⟨_, _, e, _⟩ := h2 hq
    rw [e] at h
    cases h

theorem csv_passed {x : Env} {d : Doc} (hd : x.doc = some d) (hf : x.cfg.checkSequence = false) {ctr : Counter} {m m' : Machine}
    (h : execOp x ctr 0xb2 m = .ok () m') {b : Bytes} {s : List Bytes} (hs : m.stack = b :: s) :
    m' = m ∧ (readU32 b).testBit 31 = false ∧ d.checkSequence (readU32 b) = true := by
  obtain ⟨h1, h2⟩ := C22_sequence_enforced_when_unset_partial x ctr m d hf hd
  by_cases hq : ∃ b s, m.stack = b :: s ∧ b.length ≤ 5 ∧ (x.cfg.minimal = true → isMinimalNum b = true) ∧
      0 ≤ numVal b ∧ (readU32 b).testBit 31 = false ∧ d.checkSequence (readU32 b) = true
  · obtain ⟨b', s', e, q1, q2, q3, q4, q5⟩ := hq
    rw [h1 b' s' e q1 q2 q3 q4 q5] at h
    rw [hs] at e
    cases e
    cases h
    exact ⟨rfl, q4, q5⟩
  · obtain ⟨_, _, e, _⟩ := h2 hq
    rw [e] at h
    cases h

theorem docOf_locktime {tx : Tx} {i k : Nat} (hi : i < tx.inputs.length) {vs : Bytes → Bytes → Program → BitVec 32 → Result}
    (h : (docOf tx i vs).checkLocktime k = true) : LockTimeReached tx i k := by
  obtain ⟨_, h2⟩ := C22_check_locktime tx i k hi
  apply h2.mp
  have h : (checkLocktime tx i k).getD false = true := h
  cases e : checkLocktime tx i k with
  | none => rw [e] at h; cases h
  | some b => rw [e] at h; exact congrArg some h

theorem docOf_sequence {tx : Tx} {i k : Nat} (hi : i < tx.inputs.length) {vs : Bytes → Bytes → Program → BitVec 32 → Result}
    (h : (docOf tx i vs).checkSequence k = true) : SequenceReached tx i k := by
  obtain ⟨_, h2⟩ := C22_check_sequence tx i k hi
  apply h2.mp
  have h : (checkSequence tx i k).getD false = true := h
  cases e : checkSequence tx i k with
  | none => rw [e] at h; cases h
  | some b => rw [e] at h; exact congrArg some h

/-- The bytes and instructions of a script that pays to an address from a time on. -/
def timedAddress (op : Op) (t : Instr) (h : Bytes) : Program := t :: ⟨op, []⟩ :: ⟨0x75, []⟩ :: payToAddress h

theorem plain_lock {c : Cfg} (o : Op) (h : o = 0xb1 ∨ o = 0xb2 ∨ o = 0x75) : Plain c ⟨o, []⟩ := by
  rcases h with rfl | rfl | rfl <;>
  exact ⟨by simp [Instr.verify, verifyInstruction, isMinimalPush, isPushData], fun _ => by decide,
    by decide, by decide, by decide, by decide, by decide⟩

/-- The rest of the run of a payment to an address that is locked. -/
theorem timed_rest {x : Env} {d : Doc} (hd : x.doc = some d) {op : Op} (hop : op = 0xb1 ∨ op = 0xb2) {t : Instr} (pt : Plain x.cfg t)
    {pre h : Bytes} (hh : h.length = 20) (cl : ∀ i ∈ timedAddress op t h, i.Carriable)
    (hbig : (pre ++ (timedAddress op t h).flatMap Instr.write).length < 2 ^ 31) {n : Nat} {m m' : Machine} {r : Result}
    (he : m.exec = []) (hrun : machineRun x n (atP (pre ++ [t, ⟨op, []⟩].flatMap Instr.write) (⟨0x75, []⟩ :: payToAddress h) pre.length) m =
      some (.ret r, m')) (hr : r.verified = true) :
    ∃ k pub sig s, m.stack = k :: pub :: sig :: s ∧ x.hash .hash160 pub = h ∧
      d.verifySig sig pub (cleanupScriptCode (timedAddress op t h) sig) x.cfg.flags = ⟨.ok, true⟩ ∧
      (x.cfg.cleanStack = true → s = []) := by
  have pl : ∀ i ∈ timedAddress op t h, Plain x.cfg i := by
    intro i hi
    simp only [timedAddress, List.mem_cons] at hi
    rcases hi with rfl | rfl | rfl | hi
    · exact pt
    · exact plain_lock _ (by tauto)
    · exact plain_lock _ (by tauto)
    · exact (mem_payToAddress hh x.cfg).1 i hi
  generalize hsep : pre.length = sep at hrun
  unfold timedAddress payToAddress at hbig cl
  unfold payToAddress at hrun
  -- DROP
  obtain ⟨n0, mm, m9, z1, z2, z3, z4⟩ := run_inv_sep (fun i hi => cl i (by simp at hi ⊢; tauto)) (by simpa using hbig)
    (by decide) he hrun hr
  rw [if_neg (by decide)] at z4
  rw [show execOp x _ (Instr.mk 0x75 []).op = opDrop x.cfg from rfl] at z2
  obtain ⟨k, z5⟩ := drop_inv z2
  -- DUP
  obtain ⟨n1, m0, m1, a1, a2, a3, a4⟩ := run_inv_sep (fun i hi => cl i (by simp at hi ⊢; tauto)) (by simpa using hbig)
    (by decide) z3 z4 hr
  rw [if_neg (by decide)] at a4
  rw [show execOp x _ (Instr.mk 0x76 []).op = opDup x.cfg from rfl] at a2
  obtain ⟨pub, s, b1, b2⟩ := dup_inv a2
  -- HASH160
  obtain ⟨n2, m2, m3, c1, c2, c3, c4⟩ := run_inv_sep (fun i hi => cl i (by simp at hi ⊢; tauto))
    (by simpa using hbig) (by decide) a3 a4 hr
  rw [if_neg (by decide)] at c4
  rw [show execOp x _ (Instr.mk 0xa9 []).op = opHash x.hash x.cfg .hash160 from rfl] at c2
  obtain ⟨a, s1, d1, d2⟩ := hash_inv c2
  rw [c1, b2] at d1
  injection d1 with d1 d3
  subst d1 d3
  -- the hash
  have hp := push_isPush (d := h) (by omega) (by omega)
  obtain ⟨n3, m4, m5, e1, e2, e3, e4⟩ := run_inv_sep (fun i hi => cl i (by simp at hi ⊢; tauto))
    (by simpa using hbig) (push_calm _ hp) c3 c4 hr
  rw [if_neg (by intro h'; rw [h'] at hp; exact absurd hp (by decide))] at e4
  rw [exec_push x _ (Instr.push h) rfl hp (push_carriable _ (by omega)), push_pushData _ (by omega)] at e2
  have e2 := push_inv e2
  -- EQUALVERIFY
  obtain ⟨n4, m6, m7, f1, f2, f3, f4⟩ := run_inv_sep (fun i hi => cl i (by simp at hi ⊢; tauto))
    (by simpa using hbig) (by decide) e3 e4 hr
  rw [if_neg (by decide)] at f4
  rw [show execOp x _ (Instr.mk 0x88 []).op = opEqual x.cfg true from rfl] at f2
  obtain ⟨g, s2, g1, g2⟩ := equalVerify_inv f2
  rw [f1, e2, e1, d2] at g1
  injection g1 with g1 g3
  injection g3 with g3 g4
  subst g1
  -- CHECKSIG
  subst hsep
  have hcs := checkSig_last (x := x) hd (pre := pre) (l := timedAddress op t h)
    (done := [t, ⟨op, []⟩, ⟨0x75, []⟩, ⟨0x76, []⟩, ⟨0xa9, []⟩, Instr.push h, ⟨0x88, []⟩]) rfl pl
    (by unfold timedAddress payToAddress; exact cl)
    (by unfold timedAddress payToAddress; exact hbig) f3 (by simpa using f4) hr
  obtain ⟨pub', sig, s3, i1, i2, i3⟩ := hcs
  rw [g2, ← g4] at i1
  injection i1 with i1 i4
  subst i1
  exact ⟨k, pub, sig, s3, by rw [← z1, z5, ← a1, b1, i4], g3, i2, i3⟩

/-! ### C196 -/

/-- **C196**, the part that holds: where the flag for CHECKLOCKTIMEVERIFY is not set and unlocking scripts only push, an output whose
script begins with a number and CHECKLOCKTIMEVERIFY is spent only by an input that is not final, of a transaction whose lock time has
reached the number, whatever the rest of the script.
Missing: the flag being set (`C196_false_flag`), other unlocking scripts (`C196_false_return`), and numbers of more than 32 bits
(`C196_false_large`). -/
theorem C196_until_partial (x : Env) (tx : Tx) (i : Nat) (vs : Bytes → Bytes → Program → BitVec 32 → Result)
    (hd : x.doc = some (docOf tx i vs)) (hi : i < tx.inputs.length) (hf : x.cfg.checkLocktime = false)
    (ux lx : Bytes) (t : Instr) (k : Nat) (l : Program) (hL : Locked 0xb1 lx t k l) (ho : OnlyPushes x.cfg ux)
    (hlen : 2 * ux.length + lx.length + 2 < 2 ^ 31) (n : Nat) (hn : 2 * ux.length + lx.length + 2 < n)
    (hv : ∃ r, evaluate x n ux lx = .done r ∧ r.verified = true) : LockTimeReached tx i k := by
  obtain ⟨u, r, n1, m0, m, m', ctr, _, _, _, _, hst, hx, _⟩ := locked_run (by decide) (by decide) hL ho hlen hn hv
  have := (cltv_passed hd hf hx hst).2
  rw [readU32_small hL.value hL.pos hL.small] at this
  exact docOf_locktime hi this

/-- **C196**: the same for CHECKSEQUENCEVERIFY and the sequence number of the input.
Missing: as before. -/
theorem C196_after_partial (x : Env) (tx : Tx) (i : Nat) (vs : Bytes → Bytes → Program → BitVec 32 → Result)
    (hd : x.doc = some (docOf tx i vs)) (hi : i < tx.inputs.length) (hf : x.cfg.checkSequence = false)
    (ux lx : Bytes) (t : Instr) (k : Nat) (l : Program) (hL : Locked 0xb2 lx t k l) (ho : OnlyPushes x.cfg ux)
    (hlen : 2 * ux.length + lx.length + 2 < 2 ^ 31) (n : Nat) (hn : 2 * ux.length + lx.length + 2 < n)
    (hv : ∃ r, evaluate x n ux lx = .done r ∧ r.verified = true) : SequenceReached tx i k ∧ k < 2 ^ 31 := by
  obtain ⟨u, r, n1, m0, m, m', ctr, _, _, _, _, hst, hx, _⟩ := locked_run (by decide) (by decide) hL ho hlen hn hv
  obtain ⟨_, h1, h2⟩ := csv_passed hd hf hx hst
  rw [readU32_small hL.value hL.pos hL.small] at h1 h2
  refine ⟨docOf_sequence hi h2, ?_⟩
  have := hL.small
  rw [Nat.testBit_eq_decide_div_mod_eq, decide_eq_false_iff_not] at h1
  omega

/-- **C196**: a payment to an address that is locked by CHECKLOCKTIMEVERIFY is spent only when the time has come and only with a
signature, over the whole script, by a key that has the hash.
Missing: as before. -/
theorem C196_owner_partial (x : Env) (tx : Tx) (i : Nat) (vs : Bytes → Bytes → Program → BitVec 32 → Result)
    (hd : x.doc = some (docOf tx i vs)) (hi : i < tx.inputs.length) (hf : x.cfg.checkLocktime = false)
    (ux lx : Bytes) (t : Instr) (k : Nat) (h : Bytes) (hh : h.length = 20) (pt : Plain x.cfg t)
    (hL : Locked 0xb1 lx t k (⟨0x75, []⟩ :: payToAddress h)) (ho : OnlyPushes x.cfg ux)
    (hlen : 2 * ux.length + lx.length + 2 < 2 ^ 31) (n : Nat) (hn : 2 * ux.length + lx.length + 2 < n)
    (hv : ∃ r, evaluate x n ux lx = .done r ∧ r.verified = true) :
    LockTimeReached tx i k ∧ ∃ us sig pub, decompileS ux = .ok (us ++ [sig, pub]) ∧ x.hash .hash160 pub.pushData = h ∧
      vs sig.pushData pub.pushData (cleanupScriptCode (timedAddress 0xb1 t h) sig.pushData) x.cfg.flags = ⟨.ok, true⟩ ∧
      (x.cfg.cleanStack = true → us = []) := by
  refine ⟨C196_until_partial x tx i vs hd hi hf ux lx t k _ hL ho hlen n hn hv, ?_⟩
  obtain ⟨hlx, hcar⟩ := decompileS_ok hL.reads
  obtain ⟨u, r, n1, m0, m, m', ctr, hu, _, hr, he, hst, hx, hrun⟩ := locked_run (by decide) (by decide) hL ho hlen hn hv
  obtain ⟨rfl, _⟩ := cltv_passed hd hf hx hst
  obtain ⟨b, pub, sig, s, e1, e2, e3, e4⟩ := timed_rest hd (.inl rfl) pt hh hcar
    (by rw [show timedAddress 0xb1 t h = t :: ⟨0xb1, []⟩ :: ⟨0x75, []⟩ :: payToAddress h from rfl, ← hlx]; simp; omega) he hrun hr
  rw [hst] at e1
  injection e1 with _ e1
  obtain ⟨us, si, pi, j1, j2, j3, j4⟩ := last_two e1
  subst j1 j2 j3
  exact ⟨us, si, pi, hu, e2, e3, fun h => j4 (e4 h)⟩

/-- The instructions of a script that pays to a public key from a time on. -/
def timedKey (t : Instr) (pub : Bytes) : Program := t :: ⟨0xb1, []⟩ :: ⟨0x75, []⟩ :: payToPubkey pub

theorem mem_timedKey {t : Instr} {pub : Bytes} {c : Cfg} (h : 2 ≤ pub.length ∧ pub.length ≤ 75) (pt : Plain c t) (ct : t.Carriable) :
    (∀ i ∈ timedKey t pub, Plain c i) ∧ ∀ i ∈ timedKey t pub, i.Carriable := by
  constructor
  · intro i hi
    simp only [timedKey, List.mem_cons] at hi
    rcases hi with rfl | rfl | rfl | hi
    · exact pt
    · exact plain_lock _ (by tauto)
    · exact plain_lock _ (by tauto)
    · exact (mem_payToPubkey h c).1 i hi
  · intro i hi
    simp only [timedKey, List.mem_cons] at hi
    rcases hi with rfl | rfl | rfl | hi
    · exact ct
    · exact op_carriable _ (by decide)
    · exact op_carriable _ (by decide)
    · exact (mem_payToPubkey h c).2 i hi

/-- If CHECKLOCKTIMEVERIFY lets the script go on, the signature decides. -/
theorem timed_key (x : Env) (d : Doc) (hd : x.doc = some d) (sig pub : Bytes) (t : Instr)
    (hsig : 2 ≤ sig.length ∧ sig.length ≤ 75) (hpub : 2 ≤ pub.length ∧ pub.length ≤ 75)
    (ht : isPush t.op = true) (pt : Plain x.cfg t) (ct : t.Carriable) (lt : t.pushData.length ≤ 5) (wt : t.write.length ≤ 11)
    (hgo : ∀ ctr s j, execOp x ctr 0xb1 (machineAt x.cfg (t.pushData :: s) j) = .ok () (machineAt x.cfg (t.pushData :: s) j))
    (ho : 4 ≤ x.cfg.maxOps) (hm : Roomy x.cfg 214) (n : Nat) (hn : 8 ≤ n) :
    evaluate x n ((redeemPubkey sig).flatMap Instr.write) ((timedKey t pub).flatMap Instr.write) =
      .done (verdict (d.verifySig sig pub (cleanupScriptCode (timedKey t pub) sig) x.cfg.flags)) := by
  generalize hr : d.verifySig sig pub (cleanupScriptCode (timedKey t pub) sig) x.cfg.flags = r
  obtain ⟨pl, cl⟩ := mem_timedKey hpub pt ct
  have pu : ∀ i ∈ redeemPubkey sig, Plain x.cfg i := by
    intro i hi
    simp only [redeemPubkey, List.mem_cons, List.not_mem_nil, or_false] at hi
    subst hi
    exact plain_push hsig.1 hsig.2
  have cu : ∀ i ∈ redeemPubkey sig, i.Carriable := by
    intro i hi
    simp only [redeemPubkey, List.mem_cons, List.not_mem_nil, or_false] at hi
    subst hi
    exact push_carriable _ (by omega)
  have wu : (redeemPubkey sig).flatMap Instr.write = UInt8.ofNat sig.length :: sig := by
    simp [redeemPubkey, push_write_length hsig.1 hsig.2]
  have w1 : (Instr.mk 0xb1 []).write = [0xb1] := writes_op _ (by decide)
  have w2 : (Instr.mk 0x75 []).write = [0x75] := writes_op _ (by decide)
  have w3 : (Instr.push pub).write = UInt8.ofNat pub.length :: pub := push_write_length hpub.1 hpub.2
  have w4 : (Instr.mk 0xac []).write = [0xac] := writes_op _ (by decide)
  have wl : ((timedKey t pub).flatMap Instr.write).length ≤ 90 := by
    simp [timedKey, payToPubkey, w1, w2, w3, w4]
    omega
  have isPush' : isPushProgram (redeemPubkey sig) = true := by
    simp [isPushProgram, redeemPubkey, push_isPush hsig.1 hsig.2]
  have vals : (redeemPubkey sig).map Instr.pushData = [sig] := by
    simp [redeemPubkey, push_pushData _ (show sig.length < 2 ^ 31 by omega)]
  have us : ∀ b : Bytes, ∀ s, usage (b :: s) = b.length + 32 + usage s := by
    intro b s; rw [usage_cons]
  have u0 : usage [] = 0 := rfl
  have f1 : Fits x.cfg [sig] [] := fits_roomy hm _ (by simp only [us, u0]; omega) (by simp) (by simp; omega)
  have f2 : Fits x.cfg [t.pushData, sig] [] := fits_roomy hm _ (by simp only [us, u0]; omega) (by simp) (by simp; omega)
  have f3 : Fits x.cfg [pub, sig] [] := fits_roomy hm _ (by simp only [us, u0]; omega) (by simp) (by simp; omega)
  have notSH : isP2SH (timedKey t pub) = .ok false :=
    push_isP2SH (lx := (timedKey t pub).flatMap Instr.write) (decompile_plain pl cl) ht (by omega)
  obtain ⟨k, rfl⟩ : ∃ k, n = (redeemPubkey sig).length + ((k + 6) + 1) := ⟨n - 8, by simp [redeemPubkey]; omega⟩
  rw [evaluate_plain pu pl cu cl isPush' notSH (by rw [wu]; simp at wl ⊢; omega) (by rw [vals]; exact f1) (by omega)]
  rw [vals, machineAt_start, show ([sig] : List Bytes).reverse = [sig] from rfl]
  generalize hpre : (redeemPubkey sig).flatMap Instr.write ++ [0xab] = pre
  have hpl : pre.length ≤ 77 := by rw [← hpre, wu]; simp; omega
  have hbig : (pre ++ (timedKey t pub).flatMap Instr.write).length < 2 ^ 31 := by
    rw [List.length_append]; omega
  generalize hs1 : pre.length = sep
  have code : (atP (pre ++ t.write ++ [0xb1] ++ [0x75] ++ (UInt8.ofNat pub.length :: pub)) [⟨0xac, []⟩] sep).toLastCodeSeparator =
      .ok (timedKey t pub) := by
    have := toLastSep pre (timedKey t pub) [t, ⟨0xb1, []⟩, ⟨0x75, []⟩, Instr.push pub] [⟨0xac, []⟩] rfl pl cl
    rw [hs1] at this
    rw [← this]
    simp [w1, w2, w3]
  have ncs : ∀ b : Bytes, b.length ≤ 75 → ¬ (UInt8.ofNat b.length : UInt8) = 0xab := by
    intro b hb h
    have := congrArg UInt8.toNat h
    simp at this
    omega
  unfold timedKey payToPubkey at hbig cl ⊢
  -- the time
  have s1 : step x (atP pre [t, ⟨0xb1, []⟩, ⟨0x75, []⟩, Instr.push pub, ⟨0xac, []⟩] sep) (machineAt x.cfg [sig] 1) =
      .ok () (machineAt x.cfg [t.pushData, sig] 1) := by
    rw [step_pushes x _ t (machineAt x.cfg [sig] 1) rfl ht ct (machineAt_wf f1 1) (by simp [machineAt]) f2]
    exact congrArg _ (machineAt_withStacks x.cfg _ _ 1)
  have hth : ¬ t.write.head? = some 0xab := by
    rw [write_head?]
    intro h
    rw [Option.some.inj h] at ht
    exact absurd ht (by decide)
  rw [run_ok (i := t) s1 cl hbig (k + 5), if_neg hth]
  -- CHECKLOCKTIMEVERIFY
  have s2 : step x (atP (pre ++ t.write) [⟨0xb1, []⟩, ⟨0x75, []⟩, Instr.push pub, ⟨0xac, []⟩] sep)
      (machineAt x.cfg [t.pushData, sig] 1) = .ok () (machineAt x.cfg [t.pushData, sig] 2) := by
    rw [step_counted x _ 0xb1 _ 1 w1 (by decide) (by omega)]
    exact hgo _ _ _
  rw [run_ok (i := ⟨0xb1, []⟩) s2 (fun j hj => cl j (by simp at hj ⊢; tauto)) (by simpa using hbig) (k + 4),
    if_neg (by rw [w1]; decide), w1]
  -- DROP
  have s3 : step x (atP (pre ++ t.write ++ [0xb1]) [⟨0x75, []⟩, Instr.push pub, ⟨0xac, []⟩] sep)
      (machineAt x.cfg [t.pushData, sig] 2) = .ok () (machineAt x.cfg [sig] 3) := by
    rw [step_counted x _ 0x75 _ 2 w2 (by decide) (by omega)]
    rw [show ∀ ctr, execOp x ctr 0x75 = opDrop x.cfg from fun _ => rfl]
    unfold opDrop
    rw [need_bind_pass (by simp [machineAt]), pop_spec (machineAt_wf f2 3) rfl]
    exact congrArg _ (machineAt_withStacks x.cfg _ _ 3)
  rw [run_ok (i := ⟨0x75, []⟩) s3 (fun j hj => cl j (by simp at hj ⊢; tauto)) (by simpa [w1] using hbig) (k + 3),
    if_neg (by rw [w2]; decide), w2]
  -- the key
  have s4 : step x (atP (pre ++ t.write ++ [0xb1] ++ [0x75]) [Instr.push pub, ⟨0xac, []⟩] sep)
      (machineAt x.cfg [sig] 3) = .ok () (machineAt x.cfg [pub, sig] 3) := by
    have := step_pushes x (atP (pre ++ t.write ++ [0xb1] ++ [0x75]) [Instr.push pub, ⟨0xac, []⟩] sep) (Instr.push pub)
      (machineAt x.cfg [sig] 3) rfl (push_isPush hpub.1 hpub.2) (push_carriable _ (by omega))
      (machineAt_wf f1 3) (by simp [machineAt]) (by rw [push_pushData _ (by omega)]; exact f3)
    rw [push_pushData _ (by omega)] at this
    rw [this]
    exact congrArg _ (machineAt_withStacks x.cfg _ _ 3)
  rw [run_ok (i := Instr.push pub) s4 (fun j hj => cl j (by simp at hj ⊢; tauto)) (by simpa [w1, w2] using hbig) (k + 2),
    if_neg (by rw [w3, List.head?_cons]; intro h; exact ncs _ hpub.2 (Option.some.inj h)), w3]
  -- CHECKSIG
  have s5 := step_counted x (atP (pre ++ t.write ++ [0xb1] ++ [0x75] ++ (UInt8.ofNat pub.length :: pub)) [⟨0xac, []⟩] sep)
    0xac [pub, sig] 3 w4 (by decide) (by omega)
  rw [checkSig_at x _ d hd (timedKey t pub) code sig pub 4 f3] at s5
  simp only at s5
  rw [hr] at s5
  unfold verdict
  by_cases he : r.error = .ok
  · rw [if_neg (not_not.mpr he)] at s5
    rw [run_ok (i := ⟨0xac, []⟩) s5 (fun j hj => cl j (by simp at hj ⊢; tauto))
      (by simpa [w1, w2, w3] using hbig) (k + 1)]
    rw [run_stop (end_at x _ rfl r.success 4) k, if_pos he]
    rfl
  · rw [if_pos he] at s5
    rw [run_stop s5 (k + 1), if_neg he]
    rfl

/-- **C196**, the other direction: once the time has come the signature alone decides whether a payment to a key that was locked until
then is spent. -/
theorem C196_opens (x : Env) (tx : Tx) (i : Nat) (vs : Bytes → Bytes → Program → BitVec 32 → Result)
    (hd : x.doc = some (docOf tx i vs)) (hi : i < tx.inputs.length) (hf : x.cfg.checkLocktime = false) (sig pub : Bytes) (t : Instr)
    (k : Nat) (hk : numVal t.pushData = k) (h0 : 0 < k) (h32 : k < 2 ^ 32) (hmin : isMinimalNum t.pushData = true)
    (hsig : 2 ≤ sig.length ∧ sig.length ≤ 75) (hpub : 2 ≤ pub.length ∧ pub.length ≤ 75)
    (ht : isPush t.op = true) (pt : Plain x.cfg t) (ct : t.Carriable) (lt : t.pushData.length ≤ 5) (wt : t.write.length ≤ 11)
    (ho : 4 ≤ x.cfg.maxOps) (hm : Roomy x.cfg 214) (n : Nat) (hn : 8 ≤ n) (hreached : LockTimeReached tx i k) :
    evaluate x n ((redeemPubkey sig).flatMap Instr.write) ((timedKey t pub).flatMap Instr.write) =
      .done (verdict (vs sig pub (cleanupScriptCode (timedKey t pub) sig) x.cfg.flags)) := by
  refine timed_key x _ hd sig pub t hsig hpub ht pt ct lt wt (fun ctr s j => ?_) ho hm n hn
  refine (C22_locktime_enforced_when_unset_partial x ctr _ _ hf hd).1 t.pushData s rfl lt (fun _ => hmin) (by omega) ?_
  rw [readU32_small hk h0 h32]
  show (checkLocktime tx i k).getD false = true
  rw [(C22_check_locktime tx i k hi).2.mpr hreached]
  rfl

/-- **C196, false as stated**: where the flag for CHECKLOCKTIMEVERIFY is set, the signature alone decides at any time. -/
theorem C196_false_flag (x : Env) (d : Doc) (hd : x.doc = some d) (hf : x.cfg.checkLocktime = true) (hnop : x.cfg.discourageNops = false)
    (sig pub : Bytes) (t : Instr) (hsig : 2 ≤ sig.length ∧ sig.length ≤ 75) (hpub : 2 ≤ pub.length ∧ pub.length ≤ 75)
    (ht : isPush t.op = true) (pt : Plain x.cfg t) (ct : t.Carriable) (lt : t.pushData.length ≤ 5) (wt : t.write.length ≤ 11)
    (ho : 4 ≤ x.cfg.maxOps) (hm : Roomy x.cfg 214) (n : Nat) (hn : 8 ≤ n) :
    evaluate x n ((redeemPubkey sig).flatMap Instr.write) ((timedKey t pub).flatMap Instr.write) =
      .done (verdict (d.verifySig sig pub (cleanupScriptCode (timedKey t pub) sig) x.cfg.flags)) := by
  refine timed_key x _ hd sig pub t hsig hpub ht pt ct lt wt (fun ctr s j => ?_) ho hm n hn
  rw [(C22_flag_set_is_nop x ctr _).1 hf, hnop]
  rfl

/-- **C196, false as stated**: where unlocking scripts may do more than push, as after Chronicle, RETURN spends the output at any
time. -/
theorem C196_false_return (x : Env) (hg : x.cfg.genesisOpcodes = true) (hr : x.cfg.safeReturn = true)
    (hp : x.cfg.sigPushOnly = false) (lx : Bytes) (t : Instr) (k : Nat) (l : Program) (hL : Locked 0xb1 lx t k l)
    (hv : validProgram x.cfg (t :: ⟨0xb1, []⟩ :: l) [] = .ok) (hlen : lx.length + 4 < 2 ^ 31) (ho : 1 ≤ x.cfg.maxOps) (n : Nat) :
    evaluate x (n + 1) [0x6a] lx = .done ⟨.ok, true⟩ :=
  C79_false_return x hg hr hp lx _ hL.reads hv (.inr (push_isP2SH hL.reads hL.pushes (by omega))) hlen ho n

/-- **C196, false as stated**: a time of `2^32`, which no transaction reaches, counts as none. -/
theorem C196_false_large :
    (let tx : Tx := ⟨2, [⟨⟨0, 0⟩, [], 0⟩], [], 0⟩
     let x : Env := { exampleEnv 0 with doc := some (docOf tx 0 fun _ _ _ _ => ⟨.ok, true⟩) }
     decompileS [0x05, 0, 0, 0, 0, 1, 0xb1, 0x75, 0x51] = .ok [⟨0x05, [0, 0, 0, 0, 1]⟩, ⟨0xb1, []⟩, ⟨0x75, []⟩, ⟨0x51, []⟩] ∧
     numVal [0, 0, 0, 0, 1] = 2 ^ 32 ∧ ¬ (2 ^ 32 ≤ tx.lockTime.toNat) ∧
     evaluate x 9 [] [0x05, 0, 0, 0, 0, 1, 0xb1, 0x75, 0x51] = .done ⟨.ok, true⟩) := by
  decide +kernel

/-! ### Cases -/

-- a script that is locked until block 1000
example : Locked 0xb1 [0x02, 0xe8, 0x03, 0xb1, 0x75, 0x51] ⟨0x02, [0xe8, 0x03]⟩ 1000 [⟨0x75, []⟩, ⟨0x51, []⟩] :=
  ⟨by decide +kernel, by decide, by decide +kernel, by decide, by decide⟩

-- it is spent in a transaction with lock time 1000, not in one with 999, nor by an input that is final
example :
    let x (q lt : BitVec 32) : Env := { exampleEnv 0 with doc := some (docOf ⟨2, [⟨⟨0, 0⟩, [], q⟩], [], lt⟩ 0 fun _ _ _ _ => ⟨.ok, true⟩) }
    evaluate (x 0 1000) 9 [] [0x02, 0xe8, 0x03, 0xb1, 0x75, 0x51] = .done ⟨.ok, true⟩ ∧
    evaluate (x 0 999) 9 [] [0x02, 0xe8, 0x03, 0xb1, 0x75, 0x51] = .done ⟨.unsatisfiedLocktime, false⟩ ∧
    evaluate (x 0xffffffff 1000) 9 [] [0x02, 0xe8, 0x03, 0xb1, 0x75, 0x51] = .done ⟨.unsatisfiedLocktime, false⟩ := by
  decide +kernel

-- the number may be pushed under all rules
example (c : Cfg) : Plain c ⟨0x02, [0xe8, 0x03]⟩ ∧ (Instr.mk 0x02 [0xe8, 0x03]).Carriable ∧ isPush 0x02 = true ∧
    (Instr.mk 0x02 [0xe8, 0x03]).pushData.length ≤ 5 ∧ (Instr.mk 0x02 [0xe8, 0x03]).write.length ≤ 11 ∧
    isMinimalNum [0xe8, 0x03] = true ∧ OnlyPushes c [] :=
  ⟨⟨by cases c.minimal <;> decide, fun _ => by decide, by decide, by decide, by decide, by decide, by decide⟩,
    by decide, by decide, by decide, by decide, by decide, .inr ⟨[], by decide, by decide⟩⟩

end Verif.Script
