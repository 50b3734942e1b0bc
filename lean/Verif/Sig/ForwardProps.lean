import Verif.Sig.AddressProps

/-
C174: what whoever passes a transaction on can change in an unlocking script.
-/

namespace Verif.Script

open Verif

/-- The unlocking script that pushes a signature and a key. -/
def unlockWith (sig pub : Bytes) : Bytes := UInt8.ofNat sig.length :: (sig ++ UInt8.ofNat pub.length :: pub)

theorem unlockWith_inj {sig pub sig' pub' : Bytes} (h1 : sig.length ≤ 75) (h2 : sig'.length ≤ 75)
    (h : unlockWith sig pub = unlockWith sig' pub') : sig = sig' ∧ pub = pub' := by
  unfold unlockWith at h
  simp only [List.cons.injEq] at h
  obtain ⟨e, h⟩ := h
  have e' := congrArg UInt8.toNat e
  rw [UInt8.toNat_ofNat', UInt8.toNat_ofNat'] at e'
  have hl : sig.length = sig'.length := by omega
  obtain ⟨h5, h6⟩ := List.append_inj h hl
  injection h6 with _ h6
  exact ⟨h5, h6⟩

theorem unlock_writes {sig pub : Bytes} (hsig : 2 ≤ sig.length ∧ sig.length ≤ 75) (hpub : 2 ≤ pub.length ∧ pub.length ≤ 75) :
    compile (redeemAddress sig pub) = .ok (unlockWith sig pub) := by
  have cu : ∀ i ∈ redeemAddress sig pub, i.Carriable := by
    intro i hi
    simp only [redeemAddress, List.mem_cons, List.not_mem_nil, or_false] at hi
    rcases hi with rfl | rfl
    · exact push_carriable _ (by omega)
    · exact push_carriable _ (by omega)
  have wu : (redeemAddress sig pub).flatMap Instr.write = unlockWith sig pub := by
    simp [redeemAddress, push_write_length hsig.1 hsig.2, push_write_length hpub.1 hpub.2, unlockWith]
  rw [compile_ok _ cu (flatMap_data_lt _ cu (by rw [wu]; simp [unlockWith]; omega)), wu]

/-! ### Theorem -/

/-- C174 does not hold where unlocking scripts may do more than push: whoever passes a transaction on can put a CODESEPARATOR
behind an unlocking script for an address, and it is worth the same. -/
theorem C174_false_separator (x : Env) (d : Doc) (hd : x.doc = some d) (hp : x.cfg.sigPushOnly = false) (sig pub h : Bytes)
    (hsig : 2 ≤ sig.length ∧ sig.length ≤ 75) (hpub : 2 ≤ pub.length ∧ pub.length ≤ 75) (hh : h.length = 20)
    (hg : (x.hash .hash160 pub).length = 20)
    (ho : 6 ≤ x.cfg.maxOps) (hm : Roomy x.cfg 321) (n : Nat) (hn : 10 ≤ n) :
    evaluate x n (unlockWith sig pub ++ [0xab]) (toAddress h) = evaluate x n (unlockWith sig pub) (toAddress h) := by
  rw [pay_to_address x d hd sig pub h (unlockWith sig pub) (toAddress h) hsig hpub hh hg (unlock_writes hsig hpub)
    (payToAddress_compile hh) (by omega) hm n (by omega)]
  obtain ⟨pl, cl⟩ := mem_payToAddress hh x.cfg
  have pab : Plain x.cfg ⟨0xab, []⟩ := plain_op _ (by simp)
  generalize hu0 : [Instr.push sig, Instr.push pub, ⟨0xab, []⟩] = u
  have pu : ∀ i ∈ u, Plain x.cfg i := by
    intro i hi
    rw [← hu0] at hi
    simp only [List.mem_cons, List.not_mem_nil, or_false] at hi
    rcases hi with rfl | rfl | rfl
    · exact plain_push hsig.1 hsig.2
    · exact plain_push hpub.1 hpub.2
    · exact pab
  have cu : ∀ i ∈ u, i.Carriable := by
    intro i hi
    rw [← hu0] at hi
    simp only [List.mem_cons, List.not_mem_nil, or_false] at hi
    rcases hi with rfl | rfl | rfl
    · exact push_carriable _ (by omega)
    · exact push_carriable _ (by omega)
    · exact op_carriable _ (by decide)
  have ws := push_write_length hsig.1 hsig.2
  have wp := push_write_length hpub.1 hpub.2
  have wab : (Instr.mk 0xab []).write = [0xab] := writes_op _ (by decide)
  have wu : u.flatMap Instr.write = unlockWith sig pub ++ [0xab] := by
    rw [← hu0]
    simp [ws, wp, wab, unlockWith]
  have hu := decompile_plain pu cu
  rw [wu] at hu
  have hprep := prepare_split (c := x.cfg) hu (payToAddress_decompile hh) (.inr (payToAddress_isP2SH hh)) (.inl hp)
  have pall : ∀ i ∈ u ++ [Instr.mk 0xab []] ++ payToAddress h, Plain x.cfg i := by
    intro i hi
    simp only [List.mem_append, List.mem_cons, List.not_mem_nil, or_false] at hi
    rcases hi with (hi | rfl) | hi
    · exact pu i hi
    · exact pab
    · exact pl i hi
  rw [preVerify_allPlain pall] at hprep
  have hlx : (toAddress h).length = 25 := by simp [toAddress, hh]
  have hul : (unlockWith sig pub ++ [0xab]).length ≤ 160 := by simp [unlockWith]; omega
  have hlen : 2 * (unlockWith sig pub ++ [0xab]).length + (toAddress h).length + 2 < 2 ^ 31 := by
    rw [hlx]; omega
  obtain ⟨hcar, hsz⟩ := prepare_ok hprep
  obtain ⟨c, c', h1, _, h3⟩ := evaluate_prepared (n := n) hprep hlen
  rw [start_atP _ hcar (by omega)] at h1
  injection h1 with h1
  subst h1
  rw [h3, if_neg (by simp)]
  obtain ⟨k, rfl⟩ : ∃ k, n = 2 + (k + 6 + 1 + 1) := ⟨n - 10, by omega⟩
  have us : ∀ b : Bytes, ∀ s, usage (b :: s) = b.length + 32 + usage s := by intro b s; rw [usage_cons]
  have u0 : usage [] = 0 := rfl
  have f2 : Fits x.cfg [pub, sig] [] :=
    fits_roomy hm _ (by simp only [us, u0]; omega) (by simp) (by simp; omega)
  have e6 : u ++ [Instr.mk 0xab []] ++ payToAddress h = Instr.push sig :: Instr.push pub ::
      (Instr.mk 0xab [] :: Instr.mk 0xab [] :: payToAddress h) := by
    rw [← hu0]
    simp
  rw [e6] at hcar hsz ⊢
  have hrun := two_pushes (x := x) hsig hpub f2 hcar (by omega) (k + 6 + 1 + 1)
  rw [hrun]
  rw [List.flatMap_cons, List.flatMap_cons, ← List.append_assoc] at hsz
  have e8 : [Instr.push sig, Instr.push pub].flatMap Instr.write = (Instr.push sig).write ++ (Instr.push pub).write := by
    simp
  rw [e8]
  have hpl : ((Instr.push sig).write ++ (Instr.push pub).write).length ≤ 160 := by rw [ws, wp]; simp; omega
  generalize hpre : (Instr.push sig).write ++ (Instr.push pub).write = pre at hsz hpl
  generalize hmm : withStacks x.cfg .init [pub, sig] [] = m
  have hcar2 : ∀ j ∈ Instr.mk 0xab [] :: Instr.mk 0xab [] :: payToAddress h, j.Carriable :=
    fun j hj => hcar j (List.mem_cons_of_mem _ (List.mem_cons_of_mem _ hj))
  have m2 : m.exec = [] := by rw [← hmm]; rfl
  have m3 : m.opCount = 0 := by rw [← hmm]; rfl
  have hsep : step x (atP pre (Instr.mk 0xab [] :: Instr.mk 0xab [] :: payToAddress h) 0) m =
      .ok () { m with opCount := 1 } := by
    rw [C23_step x _ 0xab [] m (by rw [atP_next, wab]) (by decide) (by simp [m2]) (by omega), m3]
    rfl
  rw [run_ok hsep hcar2 (by omega) (k + 6 + 1), wab, if_pos (by simp)]
  have e1 : ({ m with opCount := 1 } : Machine) = machineAt x.cfg [pub, sig] 1 := by
    rw [← hmm]
    exact machineAt_start x.cfg _
  rw [e1]
  have hsep2 : ∀ j, step x (atP (pre ++ [0xab]) (Instr.mk 0xab [] :: payToAddress h) j) (machineAt x.cfg [pub, sig] 1) =
      .ok () (machineAt x.cfg [pub, sig] 2) := by
    intro j
    rw [step_counted x _ 0xab _ 1 (by rw [atP_next, wab]) (by decide) (by omega)]
    rfl
  rw [run_ok (hsep2 _) (fun j hj => hcar2 j (List.mem_cons_of_mem _ hj)) (by
    have := Nat.lt_of_le_of_lt hsz hlen
    simpa [wab] using this) (k + 6), wab, if_pos (by simp)]
  obtain ⟨m', hr⟩ := run_payToAddress x d hd sig pub h hsig hpub hh _ hg rfl 2 (by omega) hm k (pre ++ [0xab] ++ [0xab])
    (by simp only [List.length_append, List.length_singleton]; omega)
  rw [List.length_append (as := pre ++ [0xab])] at hr
  rw [hr]
  rfl

end Verif.Script
