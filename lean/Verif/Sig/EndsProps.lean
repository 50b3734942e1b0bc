import Verif.Sig.BranchProps

/-
C199: scripts that end by checking a signature.
-/

namespace Verif.Script

open Verif SM

/-! ### Specification -/

/-- A script that does as `p` says, and then asks for a signature of the key `a`. -/
def thenSigned (p : Program) (a : Bytes) : Program := p ++ [Instr.push a, ⟨0xac, []⟩]

/-- Instructions that leave the order of things as it is: not IF, NOTIF, RETURN,
CHECKSIGVERIFY, CHECKMULTISIGVERIFY or CODESEPARATOR. -/
def Straight (p : Program) : Prop := ∀ i ∈ p, i.op ∉ ([0x63, 0x64, 0x6a, 0xad, 0xaf, 0xab] : List UInt8)

/-! ### Lemmas -/

/-- What is signed for, wherever a run is after the only separator. -/
theorem code_of_lock {lx pre : Bytes} {l done rest : Program} (hl : decompileS lx = .ok l) (hq : l = done ++ rest) :
    (atP (pre ++ done.flatMap Instr.write) rest pre.length).toLastCodeSeparator = .ok l := by
  obtain ⟨hw, _⟩ := decompileS_ok hl
  unfold Counter.toLastCodeSeparator atP
  simp only
  rw [List.append_assoc, List.drop_left, ← List.flatMap_append, ← hq, ← hw]
  unfold decompileS at hl
  cases e : decompile lx with
  | error _ => rw [e] at hl; cases hl
  | ok p => rw [e] at hl; injection hl with hl; rw [hl]

/-- Through all of a straight program. -/
theorem straight_inv {x : Env} {r : Result} {m' : Machine} {q : Program} (hv : r.verified = true) :
    ∀ (p : Program) (pre : Bytes) (sep n : Nat) (m : Machine), Straight p → (∀ j ∈ p ++ q, j.Carriable) →
      (pre ++ (p ++ q).flatMap Instr.write).length < 2 ^ 31 → m.exec = [] →
      machineRun x n (atP pre (p ++ q) sep) m = some (.ret r, m') →
      ∃ n1 m1, m1.exec = [] ∧ machineRun x n1 (atP (pre ++ p.flatMap Instr.write) q sep) m1 = some (.ret r, m') := by
  intro p
  induction p with
  | nil => intro pre sep n m _ _ _ he hr; exact ⟨n, m, he, by simpa using hr⟩
  | cons i p ih =>
    intro pre sep n m hp hc hl he hr
    have hi := hp i (by simp)
    simp only [List.mem_cons, List.not_mem_nil, or_false, not_or] at hi
    obtain ⟨i1, i2, i3, i4, i5, i6⟩ := hi
    obtain ⟨n', m0, m1, _, _, k3, k4⟩ := run_inv_sep hc hl ⟨i1, i2, i3, i4, i5⟩ he hr hv
    rw [if_neg i6] at k4
    obtain ⟨n1, m2, h1, h2⟩ := ih (pre ++ i.write) sep n' m1 (fun j hj => hp j (by simp [hj]))
      (carriable_tail hc) (by simpa using hl) k3 k4
    exact ⟨n1, m2, h1, by simpa using h2⟩

theorem thenSigned_notP2SH {p : Program} {a lx : Bytes} (h : decompileS lx = .ok (thenSigned p a))
    (hlen : lx.length < 2 ^ 30) : isP2SH (thenSigned p a) = .ok false := by
  obtain ⟨hw, hc⟩ := decompileS_ok h
  unfold isP2SH
  rw [compile_ok _ hc (flatMap_data_lt _ hc (by rw [← hw]; omega))]
  generalize hb : (p ++ [Instr.push a]).flatMap Instr.write = b
  have e : (thenSigned p a).flatMap Instr.write = b ++ [0xac] := by
    rw [← hb, thenSigned, show p ++ [Instr.push a, ⟨0xac, []⟩] = (p ++ [Instr.push a]) ++ [⟨0xac, []⟩] by simp,
      List.flatMap_append]
    rfl
  rw [e]
  have : isP2SHBytes (b ++ [0xac]) = false := by
    unfold isP2SHBytes
    by_cases hl : (b ++ [0xac]).length = 23
    · have h22 : b.length = 22 := by simpa using hl
      have : (b ++ [0xac])[22]? = some 0xac := by
        rw [List.getElem?_append_right (by omega), h22]; rfl
      rw [this]
      simp
    · have hb22 : ¬ b.length = 22 := fun h => hl (by simp [h])
      simp [hb22]
  rw [← this]
  rfl

/-! ### Theorems -/

/-- The key and CHECKSIG at the end of a run that ends with success. -/
theorem last_signed {x : Env} {d : Doc} (hd : x.doc = some d) {a pre : Bytes} {code : Program} {sep n : Nat}
    {m m' : Machine} {r : Result} (ha : 2 ≤ a.length ∧ a.length ≤ 75)
    (hcode : (atP (pre ++ (Instr.push a).write) [⟨0xac, []⟩] sep).toLastCodeSeparator = .ok code)
    (hbig : (pre ++ [Instr.push a, ⟨0xac, []⟩].flatMap Instr.write).length < 2 ^ 31) (he : m.exec = [])
    (hrun : machineRun x n (atP pre [Instr.push a, ⟨0xac, []⟩] sep) m = some (.ret r, m')) (hr : r.verified = true) :
    ∃ sig, d.verifySig sig a (cleanupScriptCode code sig) x.cfg.flags = ⟨.ok, true⟩ := by
  have cl2 : ∀ j ∈ [Instr.push a, ⟨0xac, []⟩], j.Carriable := by
    intro j hj
    simp only [List.mem_cons, List.not_mem_nil, or_false] at hj
    rcases hj with rfl | rfl
    · exact push_carriable _ (by omega)
    · decide
  have hpa := push_isPush (d := a) (by omega) (by omega)
  obtain ⟨n2, m2, m3, b1, b2, b3, b4⟩ := run_inv_sep cl2 hbig (push_calm _ hpa) he hrun hr
  rw [if_neg (by intro h'; rw [h'] at hpa; exact absurd hpa (by decide))] at b4
  rw [exec_push x _ (Instr.push a) rfl hpa (push_carriable _ (by omega)), push_pushData _ (by omega)] at b2
  have b2 := push_inv b2
  obtain ⟨n3, m4, m5, c1, c2, c3, c4⟩ := run_inv_sep (carriable_tail cl2) (by simpa using hbig) (by decide) b3 b4 hr
  rw [show execOp x _ (Instr.mk 0xac []).op = opCheckSig x.cfg x.doc _ false from rfl, hd] at c2
  obtain ⟨pub, sig, s, k1, k2, k3⟩ := checkSig_inv hcode c2
  rw [c1, b2] at k1
  injection k1 with k1 _
  subst k1
  obtain ⟨t, s', o1, o2, _⟩ := end_inv c4 hr
  rw [k3] at o1
  injection o1 with o1 _
  refine ⟨sig, ?_⟩
  cases hx : d.verifySig sig a (cleanupScriptCode code sig) x.cfg.flags with
  | mk e ok =>
    rw [hx] at k2 o1
    simp only at k2 o1
    cases ok with
    | true => rw [k2]
    | false => rw [← o1] at o2; exact absurd (show numVal (numBool false) = 0 by decide) o2

/-- Through all of a calm program, wherever its last separator is. -/
theorem calm_inv {x : Env} {r : Result} {m' : Machine} {q : Program} (hv : r.verified = true) :
    ∀ (p : Program) (pre : Bytes) (sep n : Nat) (m : Machine), (∀ i ∈ p, Calm i.op) → (∀ j ∈ p ++ q, j.Carriable) →
      (pre ++ (p ++ q).flatMap Instr.write).length < 2 ^ 31 → m.exec = [] →
      machineRun x n (atP pre (p ++ q) sep) m = some (.ret r, m') →
      ∃ n1 m1 sep1, m1.exec = [] ∧
        machineRun x n1 (atP (pre ++ p.flatMap Instr.write) q sep1) m1 = some (.ret r, m') := by
  intro p
  induction p with
  | nil => intro pre sep n m _ _ _ he hr; exact ⟨n, m, sep, he, by simpa using hr⟩
  | cons i p ih =>
    intro pre sep n m hp hc hl he hr
    obtain ⟨n', m0, m1, _, _, k3, k4⟩ := run_inv_sep hc hl (hp i (by simp)) he hr hv
    obtain ⟨n1, m2, sep1, h1, h2⟩ := ih (pre ++ i.write) _ n' m1 (fun j hj => hp j (by simp [hj]))
      (carriable_tail hc) (by simpa using hl) k3 k4
    exact ⟨n1, m2, sep1, h1, by simpa using h2⟩

/-- **C199**, the part that holds.  Whatever a straight script does before, if it ends with
a key and CHECKSIG then nobody spends its payment by pushes without a signature that this key accepts for
this script. -/
theorem C199_signed_partial (x : Env) (d : Doc) (hd : x.doc = some d) (ux lx a : Bytes) (p : Program)
    (ha : 2 ≤ a.length ∧ a.length ≤ 75) (hl : decompileS lx = .ok (thenSigned p a)) (hp : Straight p)
    (ho : OnlyPushes x.cfg ux) (hlen : 2 * ux.length + lx.length + 2 < 2 ^ 30) (n : Nat)
    (hn : 2 * ux.length + lx.length + 2 < n)
    (hv : ∃ r, evaluate x n ux lx = .done r ∧ r.verified = true) :
    ∃ sig, d.verifySig sig a (cleanupScriptCode (thenSigned p a) sig) x.cfg.flags = ⟨.ok, true⟩ := by
  obtain ⟨hw, cl⟩ := decompileS_ok hl
  obtain ⟨u, r, n, m, m', hu, pu, hpv, hr, he, hst, hrun⟩ := lock_run hl
    (.inr (thenSigned_notP2SH hl (by omega))) ho (by omega) hn hv
  generalize hpre : ux ++ [0xab] = pre at hrun
  have hbig : (pre ++ (thenSigned p a).flatMap Instr.write).length < 2 ^ 31 := by
    rw [← hpre, ← hw]; simp; omega
  have hcode := code_of_lock (pre := pre) hl
    (show thenSigned p a = (p ++ [Instr.push a]) ++ [⟨0xac, []⟩] by simp [thenSigned])
  have hsplit : pre ++ (p ++ [Instr.push a]).flatMap Instr.write =
      pre ++ p.flatMap Instr.write ++ (Instr.push a).write := by simp
  rw [hsplit] at hcode
  have hbig2 : (pre ++ p.flatMap Instr.write ++ [Instr.push a, ⟨0xac, []⟩].flatMap Instr.write).length < 2 ^ 31 := by
    simpa [thenSigned] using hbig
  obtain ⟨n1, m1, a1, a2⟩ := straight_inv hr p pre pre.length n m hp cl hbig he hrun
  exact last_signed hd ha hcode hbig2 a1 a2 hr

/-- **C199**, with separators: what the signature is for is what follows the last one. -/
theorem C199_separated_partial (x : Env) (d : Doc) (hd : x.doc = some d) (ux lx a : Bytes) (p q : Program)
    (ha : 2 ≤ a.length ∧ a.length ≤ 75) (hl : decompileS lx = .ok (thenSigned (p ++ ⟨0xab, []⟩ :: q) a))
    (hp : ∀ i ∈ p, Calm i.op) (hq : Straight q)
    (hq' : decompileS ((thenSigned q a).flatMap Instr.write) = .ok (thenSigned q a))
    (ho : OnlyPushes x.cfg ux) (hlen : 2 * ux.length + lx.length + 2 < 2 ^ 30) (n : Nat)
    (hn : 2 * ux.length + lx.length + 2 < n)
    (hv : ∃ r, evaluate x n ux lx = .done r ∧ r.verified = true) :
    ∃ sig, d.verifySig sig a (cleanupScriptCode (thenSigned q a) sig) x.cfg.flags = ⟨.ok, true⟩ := by
  obtain ⟨hw, cl⟩ := decompileS_ok hl
  obtain ⟨u, r, n, m, m', hu, pu, hpv, hr, he, hst, hrun⟩ := lock_run hl
    (.inr (thenSigned_notP2SH hl (by omega))) ho (by omega) hn hv
  generalize hpre : ux ++ [0xab] = pre at hrun
  have hbig : (pre ++ (thenSigned (p ++ ⟨0xab, []⟩ :: q) a).flatMap Instr.write).length < 2 ^ 31 := by
    rw [← hpre, ← hw]; simp; omega
  have esplit : thenSigned (p ++ ⟨0xab, []⟩ :: q) a = p ++ (⟨0xab, []⟩ :: thenSigned q a) := by simp [thenSigned]
  rw [esplit] at hbig cl hrun
  obtain ⟨n1, m1, sep1, a1, a2⟩ := calm_inv hr p pre pre.length n m hp cl hbig he hrun
  have cl1 : ∀ j ∈ (⟨0xab, []⟩ :: thenSigned q a : Program), j.Carriable :=
    fun j hj => cl j (List.mem_append_right _ hj)
  generalize hP : pre ++ p.flatMap Instr.write = P at a2
  have hbig1 : (P ++ (⟨0xab, []⟩ :: thenSigned q a : Program).flatMap Instr.write).length < 2 ^ 31 := by
    rw [← hP]; simpa using hbig
  -- CODESEPARATOR
  obtain ⟨n2, m2, m3, _, _, b3, b4⟩ := run_inv_sep cl1 hbig1 (by decide) a1 a2 hr
  rw [if_pos rfl, ← List.length_append] at b4
  generalize hQ : P ++ (Instr.mk 0xab []).write = Q at b4
  have hbig2 : (Q ++ (thenSigned q a).flatMap Instr.write).length < 2 ^ 31 := by
    rw [← hQ]; simpa using hbig1
  obtain ⟨n3, m4, c1, c2⟩ := straight_inv hr q Q Q.length n2 m3 hq (carriable_tail cl1) hbig2 b3 b4
  have hcode := code_of_lock (pre := Q) hq'
    (show thenSigned q a = (q ++ [Instr.push a]) ++ [⟨0xac, []⟩] by simp [thenSigned])
  rw [show Q ++ (q ++ [Instr.push a]).flatMap Instr.write = Q ++ q.flatMap Instr.write ++ (Instr.push a).write by
    simp] at hcode
  exact last_signed hd ha hcode (by simpa [thenSigned] using hbig2) c1 c2 hr

/-- The claim is false of a script with a conditional, even one that is closed and holds
nothing: `IF ENDIF <key> CHECKSIG` is spent with no signature. -/
theorem C199_false_if (x : Env) (a : Bytes) (ha : 2 ≤ a.length ∧ a.length ≤ 75) (ho : 4 ≤ x.cfg.maxOps)
    (hm : x.cfg.genesisStack = true → 66 ≤ x.cfg.maxMem) (n : Nat) (hn : 8 ≤ n) :
    ∃ r, evaluate x n [0x51, 0x00] ((thenSigned [⟨0x63, []⟩, ⟨0x68, []⟩] a).flatMap Instr.write) = .done r ∧
      r.verified = true := by
  let l : Program := [⟨0x68, []⟩, Instr.push a, ⟨0xac, []⟩]
  have el : thenSigned [⟨0x63, []⟩, ⟨0x68, []⟩] a = choice false :: l := rfl
  have pa : Plain x.cfg (Instr.push a) := plain_push ha.1 ha.2
  have ps : Plain x.cfg (Instr.mk 0xac []) := plain_op _ (by simp)
  have cl : ∀ i ∈ choice false :: l, i.Carriable := by
    intro i hi
    simp only [l, List.mem_cons, List.not_mem_nil, or_false] at hi
    rcases hi with rfl | rfl | rfl | rfl
    · decide
    · decide
    · exact push_carriable _ (by omega)
    · decide
  have vl : ∀ i ∈ choice false :: l, i.verify false = .ok := by
    intro i hi
    simp only [l, List.mem_cons, List.not_mem_nil, or_false] at hi
    rcases hi with rfl | rfl | rfl | rfl
    · decide
    · decide
    · exact plain_verify pa
    · decide
  have wa : (Instr.push a).write = UInt8.ofNat a.length :: a := push_write_length (by omega) (by omega)
  have hw : (choice false :: l).flatMap Instr.write = [0x63, 0x68] ++ (UInt8.ofNat a.length :: a) ++ [0xac] := by
    simp only [l, List.flatMap_cons, List.flatMap_nil, wa]
    rfl
  have hctl : controlFold [] (choice false :: l) = .ok [] := by
    have hb := control_plain [Instr.push a, ⟨0xac, []⟩] (by
      intro i hi
      simp only [List.mem_cons, List.not_mem_nil, or_false] at hi
      rcases hi with rfl | rfl
      · exact pa.2.2.2
      · exact ps.2.2.2)
    have : controlFold [] (choice false :: l) = controlFold [] [Instr.push a, ⟨0xac, []⟩] := rfl
    rw [this, hb.control]
  have hl : decompileS ((choice false :: l).flatMap Instr.write) = .ok (choice false :: l) := by
    unfold decompileS decompile
    rw [decompileLoop_write _ [] _ cl vl (Nat.le_refl _), hctl]
    rfl
  have hv : validProgram x.cfg (choice false :: l) [] = .ok := by
    have e1 : validProgram x.cfg (choice false :: l) [] = validProgram x.cfg [Instr.push a, ⟨0xac, []⟩] [] := by
      have m1 : (choice false).verify x.cfg.minimal = .ok ∧ isMinimalInstruction (choice false) = true := by
        cases x.cfg.minimal <;> decide
      have m2 : (Instr.mk 0x68 []).verify x.cfg.minimal = .ok ∧ isMinimalInstruction (Instr.mk 0x68 []) = true := by
        cases x.cfg.minimal <;> decide
      rw [validProgram, m1.1, m1.2]
      simp only [l, choice]
      rw [validProgram.eq_def]
      simp [m2.1, m2.2]
    rw [e1, validProgram_plain pa, validProgram_plain ps]
    rfl
  rw [el]
  refine C198_false_anyone x false _ l hl hv ?_ hm (by rw [hw]; simp; omega) n (by simp [l]; omega)
  have : (l.map Instr.write |>.filter isOperation).length ≤ 2 := by
    have e : isOperation (Instr.push a).write = false := by
      rw [wa]
      have : ¬ (0x60 : UInt8) < UInt8.ofNat a.length := by
        rw [UInt8.lt_iff_toNat_lt]; simp; omega
      simp [isOperation, this]
    simp only [l, List.map_cons, List.map_nil, List.filter_cons, e]
    exact (show ∀ k : Nat, k = 2 → k ≤ 2 by omega) _ rfl
  omega

/-- A key that is asked for after a RETURN, under the rules since genesis. -/
theorem C199_false_return :
    evaluate { exampleEnv genesisFlags with doc := some refuseAll } 100 [0x51]
      ((thenSigned [⟨0x6a, []⟩] [7, 7]).flatMap Instr.write) = .done ⟨.ok, true⟩ := by
  decide +kernel

/-- Accepts signatures of one key. -/
def acceptOne (key : Bytes) : Doc := ⟨fun _ => true, fun _ => true, fun _ pub _ _ => ⟨.ok, pub == key⟩⟩

/-- Of two keys that a script asks for, only the first is asked: `<b> CHECKSIGVERIFY <a> CHECKSIG` is spent with a
signature of `b` when no signature of `a` would be accepted. -/
theorem C199_false_second :
    evaluate { exampleEnv genesisFlags with doc := some (acceptOne [8, 8]) } 100 [0x01, 0x77]
      ((thenSigned [Instr.push [8, 8], ⟨0xad, []⟩] [7, 7]).flatMap Instr.write) = .done ⟨.ok, true⟩ ∧
    ∀ sig code f, (acceptOne [8, 8]).verifySig sig [7, 7] code f ≠ ⟨.ok, true⟩ := by
  constructor
  · decide +kernel
  · intro sig code f h
    injection h with _ h
    exact absurd h (by decide)

/-! ### Cases -/

-- `5 EQUALVERIFY <key> CHECKSIG`
example :
    let env (d : Doc) : Env := { exampleEnv genesisFlags with doc := some d }
    let p : Program := [⟨0x55, []⟩, ⟨0x88, []⟩]
    decompileS ((thenSigned p [7, 7]).flatMap Instr.write) = .ok (thenSigned p [7, 7]) ∧
      evaluate (env (acceptOne [7, 7])) 100 [0x01, 0x77, 0x55] ((thenSigned p [7, 7]).flatMap Instr.write) = .done ⟨.ok, true⟩ ∧
      evaluate (env (acceptOne [8, 8])) 100 [0x01, 0x77, 0x55] ((thenSigned p [7, 7]).flatMap Instr.write) ≠ .done ⟨.ok, true⟩ := by
  decide +kernel

example : Straight [⟨0x55, []⟩, ⟨0x88, []⟩] := by unfold Straight; decide

/-- Accepts signatures for one script. -/
def acceptFor (code : Program) : Doc := ⟨fun _ => true, fun _ => true, fun _ _ p _ => ⟨.ok, p == code⟩⟩

-- `5 EQUALVERIFY CODESEPARATOR <key> CHECKSIG`: what is signed is `<key> CHECKSIG`
example :
    let env (d : Doc) : Env := { exampleEnv genesisFlags with doc := some d }
    let l := thenSigned ([⟨0x55, []⟩, ⟨0x88, []⟩] ++ ⟨0xab, []⟩ :: []) [7, 7]
    decompileS (l.flatMap Instr.write) = .ok l ∧
      decompileS ((thenSigned [] [7, 7]).flatMap Instr.write) = .ok (thenSigned [] [7, 7]) ∧
      evaluate (env (acceptFor (thenSigned [] [7, 7]))) 100 [0x01, 0x77, 0x55] (l.flatMap Instr.write) = .done ⟨.ok, true⟩ ∧
      evaluate (env (acceptFor l)) 100 [0x01, 0x77, 0x55] (l.flatMap Instr.write) ≠ .done ⟨.ok, true⟩ := by
  decide +kernel

end Verif.Script
