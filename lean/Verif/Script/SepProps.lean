import Verif.Script.PayProps

/-
C85: a signature check is given the instructions after the last code separator passed, less
the pushes of the signature itself when it has no fork id.
-/

namespace Verif.Script

open Verif SM

/-- The instructions of `done` after its last code separator, all of them if there is none. -/
def sinceSeparator : Program → Program
  | [] => []
  | i :: p => if ∃ j ∈ p, j.op = 0xab then sinceSeparator p else if i.op = 0xab then p else i :: p

theorem write_head? (i : Instr) : i.write.head? = some i.op := by
  obtain ⟨r, h⟩ := write_head i
  rw [h]; rfl

theorem sinceSeparator_none {p : Program} (h : ¬ ∃ j ∈ p, j.op = 0xab) : sinceSeparator p = p := by
  cases p with
  | nil => rfl
  | cons i p =>
    simp only [List.mem_cons, exists_eq_or_imp, not_or] at h
    rw [sinceSeparator, if_neg h.2, if_neg h.1]

/-- Moving the counter forward by a number of instructions. -/
def steps : Nat → Counter → Option Counter
  | 0, c => some c
  | n + 1, c => c.step.bind (steps n)

theorem steps_atP (done rest : Program) (hc : ∀ i ∈ done ++ rest, i.Carriable) (pre : Bytes) (sep : Nat)
    (hs : sep ≤ pre.length)
    (hl : (pre ++ (done ++ rest).flatMap Instr.write).length < 2 ^ 31) :
    ∃ sep', steps done.length (atP pre (done ++ rest) sep) =
        some (atP (pre ++ done.flatMap Instr.write) rest sep') ∧
      (pre ++ (done ++ rest).flatMap Instr.write).drop sep' =
        (if ∃ j ∈ done, j.op = 0xab then [] else pre.drop sep) ++
          (sinceSeparator done ++ rest).flatMap Instr.write := by
  induction done generalizing pre sep with
  | nil =>
    refine ⟨sep, by simp [steps], ?_⟩
    simp [sinceSeparator, List.drop_append_of_le_length hs]
  | cons i done ih =>
    have e : pre ++ (i :: done ++ rest).flatMap Instr.write =
        (pre ++ i.write) ++ (done ++ rest).flatMap Instr.write := by simp
    obtain ⟨sep', h1, h2⟩ := ih (fun j hj => hc j (by simp at hj ⊢; tauto)) (pre ++ i.write)
      (if i.write.head? = some 0xab then pre.length + i.write.length else sep)
      (by simp only [List.length_append]; split <;> omega) (by rw [← e]; exact hl)
    refine ⟨sep', ?_, ?_⟩
    · rw [List.length_cons, steps, List.cons_append, atP_step pre i (done ++ rest) sep hc hl, Option.bind_some, h1]
      simp
    · rw [e, h2, write_head?]
      by_cases hd : ∃ j ∈ done, j.op = 0xab
      · rw [if_pos hd, if_pos (by simp only [List.mem_cons, exists_eq_or_imp]; exact .inr hd), sinceSeparator, if_pos hd]
      · rw [if_neg hd, sinceSeparator, if_neg hd, sinceSeparator_none hd]
        by_cases hi : i.op = 0xab
        · rw [if_pos (by rw [hi]), if_pos hi, if_pos (by simp [hi])]
          rw [← List.length_append, List.drop_length]
        · rw [if_neg (by simpa using hi), if_neg hi,
            if_neg (by simp only [List.mem_cons, exists_eq_or_imp, not_or]; exact ⟨hi, hd⟩)]
          rw [List.drop_append_of_le_length hs]
          simp

/-- In a script that decompiles, after passing the instructions `done` the code given to
signature checks is the decompiled form of what follows the last code separator among them. -/
theorem C85_code (b : Bytes) (hl : b.length < 2 ^ 31) (done rest : Program) (h : decompile b = .ok (done ++ rest)) :
    ∃ c ctr, Counter.start b = some c ∧ steps done.length c = some ctr ∧
      ctr.toLastCodeSeparator = decompile ((sinceSeparator done ++ rest).flatMap Instr.write) := by
  obtain ⟨h1, h2, _⟩ := decompileLoop_ok h
  have hdl : ∀ j ∈ done ++ rest, j.data.length + 5 < 2 ^ 32 := by
    intro j hj
    have a := data_le_write j (h2 j hj)
    have c := mem_write_length_le _ j hj
    rw [← h1] at c
    omega
  obtain ⟨sep', s1, s2⟩ := steps_atP done rest h2 [] 0 (Nat.le_refl _) (by rw [List.nil_append, ← h1]; exact hl)
  refine ⟨atP [] (done ++ rest) 0, _, ?_, s1, ?_⟩
  · unfold Counter.start
    rw [h1, readInstruction_flatMap _ h2 hdl]
    simp [atP]
  · unfold Counter.toLastCodeSeparator
    congr 1
    simp only [List.nil_append] at s2
    simp only [atP, List.nil_append, ← List.flatMap_append]
    rw [s2]
    simp

/-- If what follows the last separator is balanced, it is the code. -/
theorem C85_balanced_partial (b : Bytes) (hl : b.length < 2 ^ 31) (done rest : Program)
    (h : decompile b = .ok (done ++ rest)) (hb : Balanced (sinceSeparator done ++ rest)) :
    ∃ c ctr, Counter.start b = some c ∧ steps done.length c = some ctr ∧
      ctr.toLastCodeSeparator = .ok (sinceSeparator done ++ rest) := by
  obtain ⟨c, ctr, h1, h2, h3⟩ := C85_code b hl done rest h
  refine ⟨c, ctr, h1, h2, ?_⟩
  obtain ⟨_, k2, k3⟩ := decompileLoop_ok h
  have sub : ∀ (p : Program), ∀ i ∈ sinceSeparator p, i ∈ p := by
    intro p
    induction p with
    | nil => intro i hi; exact hi
    | cons j p ih =>
      intro i hi
      rw [sinceSeparator] at hi
      split at hi
      · exact List.mem_cons_of_mem _ (ih i hi)
      · split at hi
        · exact List.mem_cons_of_mem _ hi
        · exact hi
  have mem : ∀ i ∈ sinceSeparator done ++ rest, i ∈ done ++ rest := by
    intro i hi
    rcases List.mem_append.mp hi with hi | hi
    · exact List.mem_append_left _ (sub done i hi)
    · exact List.mem_append_right _ hi
  rw [h3]
  unfold decompile
  rw [decompileLoop_write _ [] _ (fun i hi => k2 i (mem i hi)) (fun i hi => k3 i (mem i hi)) (Nat.le_refl _),
    hb.control]
  rfl

/-- Of this code, signatures with the fork id bit in their last byte are checked against all,
other signatures against what is left without the pushes of the signature itself. -/
theorem C85_deleted (p : Program) (sig : Bytes) :
    ((sig.getLastD 0).toNat.testBit 6 = true → cleanupScriptCode p sig = p) ∧
    ((sig.getLastD 0).toNat.testBit 6 = false → (cleanupScriptCode p sig).Sublist p ∧
      ∀ i, (cleanupScriptCode p sig).count i = if i = Instr.push sig then 0 else p.count i) := by
  have bit : ∀ d : UInt8, ((d &&& 0x40) != 0) = d.toNat.testBit 6 := forall_byte _ (by decide +kernel)
  unfold cleanupScriptCode hasForkId
  rw [bit]
  refine ⟨fun h => by rw [if_pos h], fun h => ?_⟩
  rw [h, if_neg (by decide)]
  unfold findAndDelete
  refine ⟨List.filter_sublist, fun i => ?_⟩
  by_cases hi : i = Instr.push sig
  · rw [if_pos hi, List.count_eq_zero]
    simp [hi]
  · rw [if_neg hi, List.count_filter]
    simpa using hi

/-- That is all CHECKSIG and CHECKSIGVERIFY ask: if two documents give the same answer about
the signature and key on the stack and this code, execution is the same. -/
theorem C85_asked (x : Env) (d d' : Doc) (ctr : Counter) (o : Op) (ho : o = 0xac ∨ o = 0xad) (m : Machine)
    (sig pub : Bytes) (s : List Bytes) (hs : m.stack = pub :: sig :: s) (p : Program)
    (hp : ctr.toLastCodeSeparator = .ok p)
    (same : d.verifySig sig pub (cleanupScriptCode p sig) x.cfg.flags =
      d'.verifySig sig pub (cleanupScriptCode p sig) x.cfg.flags) :
    execOp { x with doc := some d } ctr o m = execOp { x with doc := some d' } ctr o m := by
  have key : ∀ v, opCheckSig x.cfg (some d) ctr v m = opCheckSig x.cfg (some d') ctr v m := by
    intro v
    have hres : checkSigResult x.cfg (some d) ctr sig pub = checkSigResult x.cfg (some d') ctr sig pub := by
      unfold checkSigResult scriptCode
      simp only [hp]
      funext m
      rw [SM.bind_def, SM.bind_def]
      simp only [SM.pure_def', same]
    unfold opCheckSig
    rw [need_bind_pass (by simp [hs]), top_bind (-2) 1 (by omega) (by rw [hs]; rfl),
      top_bind (-1) 0 (by omega) (by rw [hs]; rfl),
      need_bind_pass (by simp [hs]), top_bind (-2) 1 (by omega) (by rw [hs]; rfl),
      top_bind (-1) 0 (by omega) (by rw [hs]; rfl), hres]
  rcases ho with rfl | rfl
  · exact key false
  · exact key true

/-- A document that accepts every signature. -/
def acceptAll : Doc := ⟨fun _ => true, fun _ => true, fun _ _ _ _ => ⟨.ok, true⟩⟩

/-- The claim is false of a separator inside a conditional, since what follows it is not
balanced: with a document that accepts every signature `1 IF CODESEPARATOR ENDIF CHECKSIG`
fails, although `1 IF ENDIF CHECKSIG` succeeds. -/
theorem C85_false_in_conditional :
    evaluate { exampleEnv genesisFlags with doc := some acceptAll } 20 [0x51, 0x52] [0x51, 0x63, 0xab, 0x68, 0xac] =
      .done ⟨.unknownError, false⟩ ∧
    evaluate { exampleEnv genesisFlags with doc := some acceptAll } 20 [0x51, 0x52] [0x51, 0x63, 0x68, 0xac] =
      .done ⟨.ok, true⟩ := by decide +kernel

/-! ### Cases -/

-- after `CODESEPARATOR NOP CODESEPARATOR 1` the code of `CODESEPARATOR NOP CODESEPARATOR 1 2 CHECKSIG`
-- is `1 2 CHECKSIG`
example : sinceSeparator [⟨0xab, []⟩, ⟨0x61, []⟩, ⟨0xab, []⟩, ⟨0x51, []⟩] ++ [⟨0x52, []⟩, ⟨0xac, []⟩] =
    [⟨0x51, []⟩, ⟨0x52, []⟩, ⟨0xac, []⟩] := by decide

example : Balanced (sinceSeparator [⟨0xab, []⟩, ⟨0x61, []⟩, ⟨0xab, []⟩, ⟨0x51, []⟩] ++ [⟨0x52, []⟩, ⟨0xac, []⟩]) := by
  show Balanced [⟨0x51, []⟩, ⟨0x52, []⟩, ⟨0xac, []⟩]
  exact .plain _ _ (by decide) (.plain _ _ (by decide) (.plain _ _ (by decide) .nil))

-- the push of a signature without fork id is deleted, other pushes are kept
example : cleanupScriptCode [⟨2, [7, 1]⟩, ⟨2, [7, 2]⟩, ⟨0xac, []⟩] [7, 1] = [⟨2, [7, 2]⟩, ⟨0xac, []⟩] ∧
    cleanupScriptCode [⟨2, [7, 0x41]⟩, ⟨2, [7, 2]⟩, ⟨0xac, []⟩] [7, 0x41] =
      [⟨2, [7, 0x41]⟩, ⟨2, [7, 2]⟩, ⟨0xac, []⟩] := by decide +kernel

end Verif.Script
