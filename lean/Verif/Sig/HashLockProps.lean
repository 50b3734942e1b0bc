import Verif.Script.HashLock
import Verif.Script.PatternProps
import Verif.Boost.ExecProps
import Verif.Sig.AddressProps

/-
C187: who can spend a payment to a hash.
-/

namespace Verif.Script

open Verif SM

/-! ### Specification -/

/-- The bytes of a script that pays to a hash. -/
def toHash (h : Bytes) : Bytes := [0xa9, 0x14] ++ h ++ [0x88]

/-! ### Lemmas -/

theorem payToHash_write {h : Bytes} (hh : h.length = 20) : (payToHash h).flatMap Instr.write = toHash h := by
  have w : (Instr.push h).write = UInt8.ofNat h.length :: h := push_write_length (by omega) (by omega)
  have w1 : (Instr.mk 0xa9 []).write = [0xa9] := writes_op _ (by decide)
  have w2 : (Instr.mk 0x88 []).write = [0x88] := writes_op _ (by decide)
  simp only [payToHash, toHash, List.flatMap_cons, List.flatMap_nil, w, w1, w2, hh]
  rfl

theorem mem_payToHash {h : Bytes} (hh : h.length = 20) (c : Cfg) :
    (∀ i ∈ payToHash h, Plain c i) ∧ ∀ i ∈ payToHash h, i.Carriable := by
  constructor
  · intro i hi
    simp only [payToHash, List.mem_cons, List.not_mem_nil, or_false] at hi
    rcases hi with rfl | rfl | rfl
    · exact plain_op _ (by simp)
    · exact plain_push (by omega) (by omega)
    · exact plain_op _ (by simp)
  · intro i hi
    simp only [payToHash, List.mem_cons, List.not_mem_nil, or_false] at hi
    rcases hi with rfl | rfl | rfl
    · exact op_carriable _ (by decide)
    · exact push_carriable _ (by omega)
    · exact op_carriable _ (by decide)

theorem payToHash_compile {h : Bytes} (hh : h.length = 20) : compile (payToHash h) = .ok (toHash h) := by
  obtain ⟨_, cl⟩ := mem_payToHash hh ⟨0, 0, 0, 0, 0⟩
  rw [compile_ok _ cl (flatMap_data_lt _ cl (by rw [payToHash_write hh]; simp [toHash, hh])), payToHash_write hh]

theorem payToHash_isP2SH {h : Bytes} (hh : h.length = 20) : isP2SH (payToHash h) = .ok false := by
  unfold isP2SH
  rw [payToHash_compile hh]
  have e : (toHash h)[22]? = some 0x88 := by
    unfold toHash
    rw [List.getElem?_append_right (by simp [hh])]
    simp [hh]
  simp [Except.map, isP2SHBytes, e]

theorem payToHash_decompile {h : Bytes} (hh : h.length = 20) : decompileS (toHash h) = .ok (payToHash h) := by
  obtain ⟨hp, hc⟩ := mem_payToHash hh ⟨0, 0, 0, 0, 0⟩
  have := decompile_plain hp hc
  rwa [payToHash_write hh] at this

theorem write_length_le (i : Instr) : i.write.length ≤ i.data.length + 5 := by
  unfold Instr.write
  split
  · simp only [List.length_append]
    split
    · simp; omega
    · split
      · simp; omega
      · split <;> (simp; omega)
  · simp

/-! ### Theorems -/

/-- **C187**, the part that holds.  Whoever spends a payment to a hash with a script that only
pushes has pushed, last, something that has the hash, and before it something true; nothing else if the
rules ask for a clean stack. -/
theorem C187_spent_partial (x : Env) (ux h : Bytes) (hh : h.length = 20) (ho : OnlyPushes x.cfg ux)
    (hl : 2 * ux.length + 25 < 2 ^ 31) (n : Nat) (hn : 2 * ux.length + 25 < n)
    (hv : ∃ r, evaluate x n ux (toHash h) = .done r ∧ r.verified = true) :
    ∃ us v s, decompileS ux = .ok (us ++ [v, s]) ∧ isPushProgram (us ++ [v, s]) = true ∧
      x.hash .hash160 s.pushData = h ∧ numVal v.pushData ≠ 0 ∧ (x.cfg.cleanStack = true → us = []) := by
  have hlen : (toHash h).length = 23 := by simp [toHash, hh]
  obtain ⟨pl, cl⟩ := mem_payToHash hh x.cfg
  obtain ⟨u, r, n, m, m', hu, pu, hpv, hr, he, hst, hrun⟩ := lock_run (payToHash_decompile hh)
    (.inr (payToHash_isP2SH hh)) ho (by omega) (by omega) hv
  generalize hpre : ux ++ [0xab] = pre at hrun
  have hbig : (pre ++ (payToHash h).flatMap Instr.write).length < 2 ^ 31 := by
    rw [← hpre, payToHash_write hh]; simp [hlen]; omega
  generalize hsep : pre.length = sep at hrun
  unfold payToHash at hbig cl hrun
  -- HASH160
  obtain ⟨n2, m2, m3, c1, c2, c3, c4⟩ := run_inv_sep cl hbig (by decide) he hrun hr
  rw [if_neg (by decide)] at c4
  rw [show execOp x _ (Instr.mk 0xa9 []).op = opHash x.hash x.cfg .hash160 from rfl] at c2
  obtain ⟨s, rest, d1, d2⟩ := hash_inv c2
  -- the hash
  have hp := push_isPush (d := h) (by omega) (by omega)
  obtain ⟨n3, m4, m5, e1, e2, e3, e4⟩ := run_inv_sep (fun i hi => cl i (by simp at hi ⊢; tauto))
    (by simpa using hbig) (push_calm _ hp) c3 c4 hr
  rw [if_neg (by intro h'; rw [h'] at hp; exact absurd hp (by decide))] at e4
  rw [exec_push x _ (Instr.push h) rfl hp (push_carriable _ (by omega)), push_pushData _ (by omega)] at e2
  have e2 := push_inv e2
  -- EQUALVERIFY
  obtain ⟨n4, m6, m7, f1, f2, f3, f4⟩ := run_inv_sep (fun i hi => cl i (by simp at hi ⊢; tauto))
    (by simpa using hbig) (by decide) e3 e4 hr
  rw [if_neg (by decide)] at f4
  rw [show execOp x _ (Instr.mk 0x88 []).op = opEqual x.cfg true from rfl] at f2
  obtain ⟨g, s2, g1, g2⟩ := equalVerify_inv f2
  rw [f1, e2, e1, d2] at g1
  injection g1 with g1 g3
  injection g3 with g3 g4
  subst g1
  -- the end
  obtain ⟨b, s3, i1, i2, i3⟩ := end_inv f4 hr
  rw [g2, ← g4] at i1
  subst i1
  obtain ⟨us, vi, si, j1, j2, j3, j4⟩ := last_two (p := u) (pub := s) (sig := b) (s := s3) (by rw [← hst, ← c1, d1])
  subst j1 j2 j3
  exact ⟨us, vi, si, hu, pu, g3, i2, fun hcl => j4 (i3 hcl)⟩

/-- **C187**, the other direction: whoever knows something with the hash spends the
payment by pushing something true and then what they know.  No key is asked for. -/
theorem C187_spends_partial (x : Env) (s h : Bytes) (v : Instr) (hh : h.length = 20) (hash : x.hash .hash160 s = h)
    (hs : s.length ≤ 75) (pv : Plain x.cfg v) (cv : v.Carriable) (hpv : isPush v.op = true)
    (lv : v.pushData.length ≤ 75) (hv : numVal v.pushData ≠ 0)
    (ho : 3 ≤ x.cfg.maxOps) (hm : Roomy x.cfg 321) (n : Nat) (hn : 400 ≤ n) :
    ∃ r, evaluate x n ([v, Instr.push s].flatMap Instr.write) (toHash h) = .done r ∧ r.verified = true := by
  obtain ⟨pl, cl⟩ := mem_payToHash hh x.cfg
  have pu : ∀ i ∈ [v, Instr.push s], Plain x.cfg i := by
    intro i hi
    simp only [List.mem_cons, List.not_mem_nil, or_false] at hi
    rcases hi with rfl | rfl
    · exact pv
    · exact Boost.plain_push_any (by omega) (fun _ => by omega)
  have cu : ∀ i ∈ [v, Instr.push s], i.Carriable := by
    intro i hi
    simp only [List.mem_cons, List.not_mem_nil, or_false] at hi
    rcases hi with rfl | rfl
    · exact cv
    · exact push_carriable _ (by omega)
  have hpu : isPushProgram [v, Instr.push s] = true := by
    simp [isPushProgram, hpv, Boost.push_isPush' (show s.length < 2 ^ 31 by omega)]
  have es : (Instr.push s).pushData = s := push_pushData _ (by omega)
  have dv : v.data.length ≤ 75 := by
    rcases hd : isPushData v.op with _ | _
    · have hn := (isPushData_false_iff _).mp hd
      rcases cv with h | h | h | h | h
      · omega
      all_goals first | (rw [h.1] at hd; exact absurd hd (by decide)) | simp [h.2]
    · rw [pushData_of_data hd] at lv; exact lv
  generalize hvd : v.pushData = b at lv hv
  have wl := payToHash_write hh
  have ws := push_data_length s (by omega)
  have lw : ([v, Instr.push s].flatMap Instr.write).length ≤ 160 := by
    have h1 := write_length_le (Instr.push s)
    have h2 := write_length_le v
    simp only [List.flatMap_cons, List.flatMap_nil, List.append_nil, List.length_append]
    omega
  have us : ∀ b : Bytes, ∀ s, usage (b :: s) = b.length + 32 + usage s := by
    intro b s; rw [usage_cons]
  have u0 : usage [] = 0 := rfl
  have fit : ∀ s : List Bytes, usage s ≤ 321 → s.length ≤ 4 → (∀ b ∈ s, b.length ≤ 75) → Fits x.cfg s [] :=
    fun s h1 h2 h3 => fits_roomy hm s h1 (by omega) (fun b hb => by have := h3 b hb; omega)
  have f1 : Fits x.cfg [s, b] [] := fit _ (by simp only [us, u0]; omega) (by simp) (by simp; omega)
  have f2 : Fits x.cfg [h, b] [] := fit _ (by simp only [us, u0]; omega) (by simp) (by simp; omega)
  have f3 : Fits x.cfg [h, h, b] [] := fit _ (by simp only [us, u0]; omega) (by simp) (by simp; omega)
  have hlen : (toHash h).length = 23 := by simp [toHash, hh]
  obtain ⟨k, rfl⟩ : ∃ k, n = [v, Instr.push s].length + ((k + 4) + 1) := ⟨n - 7, by simp; omega⟩
  rw [← wl, evaluate_plain pu pl cu cl hpu (payToHash_isP2SH hh) (by rw [wl, hlen]; omega)
    (by simp only [List.map_cons, List.map_nil, es, hvd]; exact f1) (by omega)]
  simp only [List.map_cons, List.map_nil, es, hvd, List.reverse_cons, List.reverse_nil, List.nil_append,
    List.cons_append]
  rw [machineAt_start]
  generalize hpre : [v, Instr.push s].flatMap Instr.write ++ [0xab] = pre
  have hpl : pre.length ≤ 161 := by rw [← hpre]; simp at lw ⊢; omega
  have hbig : (pre ++ (payToHash h).flatMap Instr.write).length < 2 ^ 31 := by
    rw [wl]; simp [hlen]; omega
  generalize pre.length = sep
  unfold payToHash at hbig cl ⊢
  have w1 : (Instr.mk 0xa9 []).write = [0xa9] := writes_op _ (by decide)
  have w2 : (Instr.push h).write = UInt8.ofNat h.length :: h := push_write_length (by omega) (by omega)
  have w3 : (Instr.mk 0x88 []).write = [0x88] := writes_op _ (by decide)
  -- HASH160
  have s1 : step x (atP pre [⟨0xa9, []⟩, Instr.push h, ⟨0x88, []⟩] sep) (machineAt x.cfg [s, b] 1) =
      .ok () (machineAt x.cfg [h, b] 2) := by
    rw [step_counted x _ 0xa9 _ 1 w1 (by decide) (by omega)]
    rw [show ∀ ctr, execOp x ctr 0xa9 = opHash x.hash x.cfg .hash160 from fun _ => rfl]
    unfold opHash
    rw [need_bind_pass (by simp [machineAt])]
    exact modifyTop_at (by rw [hash]) f2
  rw [run_ok (i := ⟨0xa9, []⟩) s1 cl hbig (k + 3), if_neg (by rw [w1]; decide)]
  -- the hash
  have s2 : step x (atP (pre ++ (Instr.mk 0xa9 []).write) [Instr.push h, ⟨0x88, []⟩] sep)
      (machineAt x.cfg [h, b] 2) = .ok () (machineAt x.cfg [h, h, b] 2) := by
    have := step_pushes x (atP (pre ++ (Instr.mk 0xa9 []).write) [Instr.push h, ⟨0x88, []⟩] sep) (Instr.push h)
      (machineAt x.cfg [h, b] 2) rfl (push_isPush (by omega) (by omega)) (push_carriable _ (by omega))
      (machineAt_wf f2 2) (by simp [machineAt]) (by rw [push_pushData _ (by omega)]; exact f3)
    rw [push_pushData _ (by omega)] at this
    rw [this]
    exact congrArg _ (machineAt_withStacks x.cfg _ _ 2)
  rw [run_ok (i := Instr.push h) s2 (fun j hj => cl j (by simp at hj ⊢; tauto)) (by simpa using hbig) (k + 2),
    if_neg (by rw [w2, hh, List.head?_cons]; decide)]
  -- EQUALVERIFY
  have s3 : step x (atP (pre ++ (Instr.mk 0xa9 []).write ++ (Instr.push h).write) [⟨0x88, []⟩] sep)
      (machineAt x.cfg [h, h, b] 2) = .ok () (machineAt x.cfg [b] 3) := by
    rw [step_counted x _ 0x88 _ 2 w3 (by decide) (by omega)]
    rw [C21_equalverify x _ (machineAt x.cfg [h, h, b] 3) (machineAt_wf f3 3) h [b] rfl]
    exact congrArg _ (machineAt_withStacks x.cfg _ _ 3)
  rw [run_ok (i := ⟨0x88, []⟩) s3 (fun j hj => cl j (by simp at hj ⊢; tauto)) (by simpa using hbig) (k + 1),
    if_neg (by rw [w3]; decide)]
  -- the end
  obtain ⟨r, m', e1, e2⟩ := (step_wins x
    (atP (pre ++ (Instr.mk 0xa9 []).write ++ (Instr.push h).write ++ (Instr.mk 0x88 []).write) [] sep)
    (machineAt x.cfg [b] 3)).mpr (.atEnd b [] rfl rfl hv fun _ => rfl)
  rw [run_stop e1 k]
  exact ⟨r, rfl, e2⟩

/-- C187 is false: what the library makes to redeem a payment to a hash never spends
it, not even if it pushes what has the hash.  Nothing is left on the stack when the
script has checked the hash. -/
theorem C187_false_redeem (x : Env) (s h ux : Bytes) (hh : h.length = 20) (hs : s.length < 2 ^ 29)
    (hu : compile (redeemHash s) = .ok ux) (n : Nat) (hn : 2 * ux.length + 25 < n) :
    ¬ ∃ r, evaluate x n ux (toHash h) = .done r ∧ r.verified = true := by
  intro hv
  have cu : ∀ i ∈ redeemHash s, i.Carriable := by
    intro i hi
    simp only [redeemHash, List.mem_cons, List.not_mem_nil, or_false] at hi
    subst hi
    exact push_carriable _ (by omega)
  have pu : ∀ i ∈ redeemHash s, Plain ⟨0, 0, 0, 0, 0⟩ i := by
    intro i hi
    simp only [redeemHash, List.mem_cons, List.not_mem_nil, or_false] at hi
    subst hi
    exact Boost.plain_push_any (by omega) (fun h => absurd h (by decide))
  have hw : ((redeemHash s).flatMap Instr.write).length < 2 ^ 29 + 5 := by
    have h1 := write_length_le (Instr.push s)
    have h2 := push_data_length s (by omega)
    simp only [redeemHash, List.flatMap_cons, List.flatMap_nil, List.append_nil]
    omega
  rw [compile_ok _ cu (flatMap_data_lt _ cu (by omega))] at hu
  cases hu
  have hd := decompile_plain pu cu
  have ho : OnlyPushes x.cfg ((redeemHash s).flatMap Instr.write) :=
    .inr ⟨_, hd, by simp [isPushProgram, redeemHash, Boost.push_isPush' (show s.length < 2 ^ 31 by omega)]⟩
  obtain ⟨us, v, t, h1, _⟩ := C187_spent_partial x _ h hh ho (by omega) n hn hv
  rw [hd] at h1
  have := congrArg List.length (Except.ok.inj h1)
  simp [redeemHash] at this

/-- **C187**: what is recognised as a payment to a hash, and which hash is read from it. -/
theorem C187_recognised (s h : Bytes) :
    recognise hashPattern s = .found h ↔ h.length = 20 ∧ ∃ b, PushOf h b ∧ s = [0xa9] ++ b ++ [0x88] := by
  rw [recognise_found]
  simp only [hashPattern, Pat.sequence, List.foldr_cons, List.foldr_nil, Pat.construct, Pat.op]
  simp only [← Pat.op.eq_def, seq_ok, null_ok, op_ok (o := 0xa9) (by decide) (by decide),
    op_ok (o := 0x88) (by decide) (by decide), scan_pushSize (n := 20) (by decide) (by decide)]
  constructor
  · rintro ⟨l, ⟨_, _, _, ⟨rfl, rfl⟩, ⟨_, _, _, ⟨d, b, hd, hb, rfl, rfl⟩,
      ⟨_, _, _, ⟨rfl, rfl⟩, ⟨rfl, rfl⟩, rfl⟩, rfl⟩, rfl⟩, rfl⟩
    refine ⟨by simpa [Log.value] using hd, b, by simpa [Log.value] using hb, by simp⟩
  · rintro ⟨hl, b, hb, rfl⟩
    exact ⟨[(0, h)], ⟨[], _, [(0, h)], ⟨rfl, rfl⟩, ⟨[(0, h)], [0x88], [],
      ⟨h, b, hl, hb, rfl, rfl⟩, ⟨[], [], [], ⟨rfl, rfl⟩, ⟨rfl, rfl⟩, rfl⟩, rfl⟩, rfl⟩, by simp [Log.value]⟩

/-- **C187**: the script that is made for a hash has these bytes, and is recognised. -/
theorem C187_made (h : Bytes) (hh : h.length = 20) :
    compile (payToHash h) = .ok (toHash h) ∧ recognise hashPattern (toHash h) = .found h := by
  refine ⟨payToHash_compile hh, (C187_recognised _ _).mpr ⟨hh, _, pushOf_push (by omega), ?_⟩⟩
  simp [toHash, hh]

/-! ### Cases -/

-- the hypotheses are met: one true value beneath what has the hash
example :
    let env : Env := { exampleEnv genesisFlags with hash := fun _ b => List.replicate 18 9 ++ b }
    evaluate env 400 ([⟨0x51, []⟩, Instr.push [0x77, 2]].flatMap Instr.write) (toHash (List.replicate 18 9 ++ [0x77, 2])) =
      .done ⟨.ok, true⟩ ∧
    evaluate env 400 ([⟨0x51, []⟩, Instr.push [0x77, 3]].flatMap Instr.write) (toHash (List.replicate 18 9 ++ [0x77, 2])) ≠
      .done ⟨.ok, true⟩ ∧
    compile (redeemHash [0x77, 2]) = .ok [0x02, 0x77, 2] ∧
    evaluate env 400 [0x02, 0x77, 2] (toHash (List.replicate 18 9 ++ [0x77, 2])) = .done ⟨.cleanStack, false⟩ := by
  decide +kernel

-- a true value that may be pushed under all rules
example (c : Cfg) : Plain c ⟨0x51, []⟩ ∧ (Instr.mk 0x51 []).Carriable ∧ isPush 0x51 = true ∧
    (Instr.mk 0x51 []).pushData.length ≤ 75 ∧ numVal (Instr.mk 0x51 []).pushData ≠ 0 :=
  ⟨⟨by cases c.minimal <;> decide, fun _ => by decide, by decide, by decide, by decide, by decide, by decide⟩,
    op_carriable _ (by decide), by decide, by decide, by decide⟩

end Verif.Script
