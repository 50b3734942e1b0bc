import Verif.Sig.EndsProps
import Verif.Sig.KeysProps

/-
C199: scripts that end by checking signatures of several keys.
-/

namespace Verif.Script

open Verif SM

/-! ### Specification -/

/-- A script that does as `p` says, and then asks for `w` signatures of the keys. -/
def thenKeys (p : Program) (w : Nat) (keys : List Bytes) : Program := p ++ payToKeys w keys

/-! ### Lemmas -/

theorem thenKeys_notP2SH {p : Program} {w : Nat} {keys : List Bytes} {lx : Bytes} (h : decompileS lx = .ok (thenKeys p w keys))
    (hlen : lx.length < 2 ^ 30) : isP2SH (thenKeys p w keys) = .ok false := by
  obtain ⟨hw, hc⟩ := decompileS_ok h
  unfold isP2SH
  rw [compile_ok _ hc (flatMap_data_lt _ hc (by rw [← hw]; omega))]
  generalize hb : (p ++ keyPushes w keys).flatMap Instr.write = b
  have e : (thenKeys p w keys).flatMap Instr.write = b ++ [0xae] := by
    rw [← hb, thenKeys, payToKeys_split, ← List.append_assoc, List.flatMap_append]
    rfl
  rw [e]
  have : isP2SHBytes (b ++ [0xae]) = false := by
    unfold isP2SHBytes
    by_cases hl : (b ++ [0xae]).length = 23
    · have h22 : b.length = 22 := by simpa using hl
      have : (b ++ [0xae])[22]? = some 0xae := by
        rw [List.getElem?_append_right (by omega), h22]; rfl
      rw [this]
      simp
    · have hb22 : ¬ b.length = 22 := fun h => hl (by simp [h])
      simp [hb22]
  rw [← this]
  rfl

/-! ### Theorems -/

/-- **C199**, for several keys.  Whatever a straight script does before, if it ends with keys and CHECKMULTISIG then nobody
spends its payment by pushes without good signatures of as many of the keys as have to sign, in the order of the keys and each
of another key.  What is signed is this script without some values that whoever spends can choose (C90, C171). -/
theorem C199_keys_partial (x : Env) (d : Doc) (hd : x.doc = some d) (ux lx : Bytes) (p : Program) (w : Nat) (keys : List Bytes)
    (hk : KeysOk w keys) (hl : decompileS lx = .ok (thenKeys p w keys)) (hp : Straight p)
    (ho : OnlyPushes x.cfg ux) (hlen : 2 * ux.length + lx.length + 2 < 2 ^ 30) (n : Nat)
    (hn : 2 * ux.length + lx.length + 2 < n)
    (hv : ∃ r, evaluate x n ux lx = .done r ∧ r.verified = true) :
    ∃ sigs chosen removed : List Bytes, sigs.length = w ∧ removed.length ≤ w ∧ chosen.Sublist keys ∧
      List.Forall₂ (fun s k => d.verifySig s k (removed.foldl cleanupScriptCode (thenKeys p w keys)) x.cfg.flags = ⟨.ok, true⟩)
        sigs chosen := by
  obtain ⟨hw, cl⟩ := decompileS_ok hl
  obtain ⟨u, r, n, m, m', hu, pu, hpv, hr, he, hst, hrun⟩ := lock_run hl
    (.inr (thenKeys_notP2SH hl (by omega))) ho (by omega) hn hv
  generalize hpre : ux ++ [0xab] = pre at hrun
  have hbig : (pre ++ (thenKeys p w keys).flatMap Instr.write).length < 2 ^ 31 := by
    rw [← hpre, ← hw]; simp; omega
  have hcode := code_of_lock (pre := pre) hl
    (show thenKeys p w keys = (p ++ keyPushes w keys) ++ [⟨0xae, []⟩] by simp [thenKeys, payToKeys_split])
  obtain ⟨n0, m0, z1, z2⟩ := straight_inv hr p pre pre.length n m hp cl hbig he hrun
  obtain ⟨_, cl⟩ := mem_payToKeys hk x.cfg
  rw [show pre ++ (p ++ keyPushes w keys).flatMap Instr.write =
    pre ++ p.flatMap Instr.write ++ (keyPushes w keys).flatMap Instr.write by simp] at hcode
  have hbig : (pre ++ p.flatMap Instr.write ++ (payToKeys w keys).flatMap Instr.write).length < 2 ^ 31 := by
    simpa [thenKeys] using hbig
  generalize hsep : pre.length = sep at hcode z2
  generalize hP : pre ++ p.flatMap Instr.write = P at hcode z2 hbig
  rw [payToKeys_split] at z2
  obtain ⟨n1, m1, a1, a2, a3⟩ := run_pushes_inv hr (keyPushes w keys) P sep n0 m0 (keyPushes_push hk)
    (by rw [← payToKeys_split]; exact cl) (by rw [← payToKeys_split]; exact hbig) z1 z2
  rw [keyPushes_data hk] at a2
  obtain ⟨n2, m2, m3, b1, b2, b3, b4⟩ := run_inv_sep (fun j hj => cl j (by rw [payToKeys_split]; simp at hj ⊢; tauto))
    (by rw [payToKeys_split] at hbig; simpa using hbig) (by decide) a1 a3 hr
  rw [show execOp x _ (Instr.mk 0xae []).op = opCheckMultisig x.cfg x.doc _ false from rfl, hd] at b2
  have hfew := hk.few
  have henough := hk.enough
  obtain ⟨sigs, dummy, rest, ok, e1, e2, e3, e4, e5⟩ := multisig_inv hcode
    (K := keys.reverse) (S := m0.stack) (w := w) (nk := [UInt8.ofNat keys.length]) (ns := [UInt8.ofNat w])
    (by rw [b1, a2]; simp) (by rw [List.length_reverse]; exact (small_op keys.length (Nat.le_trans hk.some henough) hfew).2.2.2.2 _)
    ((small_op w hk.some (Nat.le_trans henough hfew)).2.2.2.2 _) (by simpa using henough) (by simp; omega) b2
  obtain ⟨b, s, f1, f2, f3⟩ := end_inv b4 hr
  rw [e3] at f1
  injection f1 with f1 f4
  have hok : ok = true := by
    cases ok with
    | true => rfl
    | false => subst f1; exact absurd (by decide) f2
  obtain ⟨ch, g1, g2⟩ := greedy_good _ _ (by simp [e2, hk.enough]) (e5 hok)
  refine ⟨sigs.reverse, ch.reverse, (m0.stack.reverse.drop 1).take w, by simpa using e2, by simp, ?_, ?_⟩
  · have := g1.reverse
    rwa [List.reverse_reverse] at this
  · exact List.forall₂_reverse_iff.mpr g2

-- `5 EQUALVERIFY 1 <key> <key> 2 CHECKMULTISIG` is spent with the number and a signature of one of the keys
example :
    let env (d : Doc) : Env := { exampleEnv genesisFlags with doc := some d }
    let l := thenKeys [⟨0x55, []⟩, ⟨0x88, []⟩] 1 [[7, 7], [8, 8]]
    decompileS (l.flatMap Instr.write) = .ok l ∧
      evaluate (env (acceptOne [7, 7])) 100 [0x00, 0x01, 0x77, 0x55] (l.flatMap Instr.write) = .done ⟨.ok, true⟩ ∧
      evaluate (env (acceptOne [9, 9])) 100 [0x00, 0x01, 0x77, 0x55] (l.flatMap Instr.write) ≠ .done ⟨.ok, true⟩ := by
  decide +kernel

example : KeysOk 1 [[7, 7], [8, 8]] := ⟨by decide, by decide, by decide, by decide⟩

end Verif.Script
