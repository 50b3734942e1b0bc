import Verif.Boost.ExecLemmas
import Verif.Boost.SizeProps

/-
C94: the operations of a Boost output script accept exactly the proofs of work.
-/

namespace Verif.Boost

open Verif Script Work SM

variable {x : Env} {pre : Bytes} {l q : Program} {s a : List Bytes} {Q : Prop}

/-- Arithmetic on how much the stacks hold. -/
macro "room" w:term : tactic => `(tactic| (
  unfold Room; simp only [usage_cons, usage_nil, List.length_append, wfix_length, List.length_replicate,
    ($w).hash, ($w).hash', List.eraseIdx_cons_succ, List.eraseIdx_cons_zero]; omega))

/-- What the end of the script demands. -/
def TailOK (x : Env) (d : Doc) (l : Program) (acc ts nonce pub sig h : Bytes) (t : Compact) : Prop :=
  ts.length = 4 ∧ nonce.length = 4 ∧ 3 ≤ t.exponent ∧ t.exponent ≤ 32 ∧
    leNat (x.hash .hash256 (acc ++ ts ++ wfix 4 t ++ nonce)) < expand t ∧ x.hash .hash160 pub = h ∧
    (verdict (d.verifySig sig pub (cleanupScriptCode l sig) x.cfg.flags)).verified = true

theorem run_tail {d : Doc} {acc ts nonce pub sig h : Bytes} {t : Compact} (w : Wide x) (hd : x.doc = some d)
    (hp : ∀ i ∈ l, Plain x.cfg i)
    (h1 : ts.length < 2 ^ 31) (h2 : nonce.length < 2 ^ 31)
    (hr : acc.length + ts.length + nonce.length + 2 * pub.length + sig.length + h.length + 1000 ≤ x.cfg.maxMem) :
    Leads x pre l opsTail [acc, ts, nonce, pub, sig] [wfix 4 t, wfix 4 t, h]
      (TailOK x d l acc ts nonce pub sig h t) := by
  unfold opsTail
  simp only [List.cons_append, List.nil_append]
  refine L_swap w (by room w) ?_
  refine L_size (k := 4) w (by decide) (by decide) h1 (by room w) (fun h' hc => h' hc.1) fun e1 => ?_
  refine L_cat w (by room w) ?_
  refine L_fromalt w (by room w) ?_
  refine L_cat w (by room w) ?_
  refine L_swap w (by room w) ?_
  refine L_size (k := 4) w (by decide) (by decide) h2 (by room w) (fun h' hc => h' hc.2.1) fun e2 => ?_
  refine L_cat w (by room w) ?_
  refine L_hash256 w (by room w) ?_
  have hl := w.hash (acc ++ ts ++ wfix 4 t ++ nonce)
  have hlt := leNat_lt (x.hash .hash256 (acc ++ ts ++ wfix 4 t ++ nonce))
  rw [hl] at hlt
  refine L_positive w (by omega) (by room w) ?_
  have nl := numEnc_length_nat hlt
  refine L_fromalt w (by room w) ?_
  refine L_expand w (by room w) (fun hn hc => ?_) fun g1 g2 g3 => ?_
  · refine hn ⟨hc.2.2.1, hc.2.2.2.1, Decidable.byContradiction fun hh => ?_⟩
    exact expand_not_pos hh _ hc.2.2.2.2.1
  have el := expandedBytes_length g2
  have elt := leNat_lt (expandedBytes t)
  rw [el] at elt
  refine L_positive w (by omega) (by
    unfold Room; simp only [usage_cons, usage_nil, el]; omega) ?_
  refine L_less w hlt elt (by room w) (fun hn hc => hn ?_) fun hlt' => ?_
  · rw [expanded_leNat g1 g2 g3]; exact hc.2.2.2.2.1
  rw [expanded_leNat g1 g2 g3] at hlt'
  refine L_dup w (by room w) ?_
  refine L_hash160 w (by room w) ?_
  refine L_fromalt w (by room w) ?_
  by_cases hh : x.hash .hash160 pub = h
  · subst hh
    refine Leads.cons (by decide) (fun hf => st_equalverify hf) (Room.fits w (by room w)) ?_
    refine (Leads.checksig hd hp).iff ?_
    exact ⟨fun hv => ⟨e1, e2, g1, g2, hlt', rfl, hv⟩, fun hc => hc.2.2.2.2.2.2⟩
  · exact Leads.stop (fun hf => fl_equalverify hh hf) fun hc => hh hc.2.2.2.2.2.1

/-- The beginning of the operations. -/
theorem run_head {data h : Bytes} {un cat : BitVec 32} {tag : Bytes} {t : Compact} {content : BitVec 256}
    {rest : List Bytes} (w : Wide x) (hrest : rest.length < 2 ^ 30)
    (hr : 2 * data.length + 2 * tag.length + 3 * h.length + usage rest + 1000 ≤ x.cfg.maxMem)
    (hl : Leads x pre l q ((tag ++ h) :: (wfix 4 un ++ data) :: wfix 4 t :: wfix 32 content :: wfix 4 cat :: rest)
      [wfix 4 t, h] Q) :
    Leads x pre l (opsHead ++ q)
      (data :: wfix 4 un :: tag :: wfix 4 t :: wfix 32 content :: wfix 4 cat :: h :: rest) [] Q := by
  unfold opsHead
  simp only [List.cons_append, List.nil_append]
  refine L_cat w (by room w) ?_
  refine L_swap w (by room w) ?_
  refine L_roll (k := 5) (v := h) w (by decide) (by decide) rfl (by simp only [List.length_cons]; omega) (by room w) ?_
  simp only [List.eraseIdx_cons_succ, List.eraseIdx_cons_zero]
  refine L_dup w (by room w) ?_
  refine L_toalt w (by room w) ?_
  refine L_cat w (by room w) ?_
  refine L_pick (k := 2) (v := wfix 4 t) w (by decide) (by decide) rfl (by simp only [List.length_cons]; omega)
    (by room w) (by room w) ?_
  exact L_toalt w (by room w) hl

/-- The operations without general purpose bits. -/
theorem run_plain {d : Doc} {hdr bod n1 n2 ts nonce pub sig h : Bytes} {cat : BitVec 32} {t : Compact}
    {content : BitVec 256} (w : Wide x) (hd : x.doc = some d) (hp : ∀ i ∈ l, Plain x.cfg i)
    (h1 : n1.length < 2 ^ 31) (h2 : n2.length < 2 ^ 31) (h3 : ts.length < 2 ^ 31) (h4 : nonce.length < 2 ^ 31)
    (hr : 2 * hdr.length + 2 * bod.length + 2 * n1.length + 2 * n2.length + ts.length + nonce.length +
      2 * pub.length + sig.length + h.length + 2000 ≤ x.cfg.maxMem) :
    Leads x pre l opsPlain' [hdr, bod, wfix 4 t, wfix 32 content, wfix 4 cat, n1, n2, ts, nonce, pub, sig]
      [wfix 4 t, h]
      (n1.length = 4 ∧ n2.length = 8 ∧
        TailOK x d l (wfix 4 cat ++ (wfix 32 content ++ x.hash .hash256 (hdr ++ n1 ++ n2 ++ bod)))
          ts nonce pub sig h t) := by
  unfold opsPlain'
  simp only [List.cons_append, List.nil_append]
  refine L_roll (k := 5) (v := n1) w (by decide) (by decide) rfl (by simp) (by room w) ?_
  simp only [List.eraseIdx_cons_succ, List.eraseIdx_cons_zero]
  refine L_size (k := 4) w (by decide) (by decide) h1 (by room w) (fun h' hc => h' hc.1) fun e1 => ?_
  refine L_cat w (by room w) ?_
  refine L_roll (k := 5) (v := n2) w (by decide) (by decide) rfl (by simp) (by room w) ?_
  simp only [List.eraseIdx_cons_succ, List.eraseIdx_cons_zero]
  refine L_size (k := 8) w (by decide) (by decide) h2 (by room w) (fun h' hc => h' hc.2.1) fun e2 => ?_
  refine L_cat w (by room w) ?_
  refine L_swap w (by room w) ?_
  refine L_cat w (by room w) ?_
  refine L_hash256 w (by room w) ?_
  refine L_swap w (by room w) ?_
  refine L_toalt w (by room w) ?_
  refine L_cat w (by room w) ?_
  refine L_cat w (by room w) ?_
  refine (run_tail w hd hp h3 h4 (by simp only [List.length_append, wfix_length, w.hash]; omega)).iff ?_
  exact ⟨fun hc => ⟨e1, e2, hc⟩, fun hc => hc.2.2⟩

/-- The operations with general purpose bits. -/
theorem run_bits {d : Doc} {hdr bod g n1 n2 ts nonce pub sig h : Bytes} {cat : BitVec 32} {t : Compact}
    {content : BitVec 256} (w : Wide x) (hd : x.doc = some d) (hp : ∀ i ∈ l, Plain x.cfg i)
    (h1 : n1.length < 2 ^ 31) (h2 : n2.length < 2 ^ 31) (h3 : ts.length < 2 ^ 31) (h4 : nonce.length < 2 ^ 31)
    (hr : 2 * hdr.length + 2 * bod.length + 2 * n1.length + 2 * n2.length + ts.length + nonce.length + g.length +
      2 * pub.length + sig.length + h.length + 2000 ≤ x.cfg.maxMem) :
    Leads x pre l opsBits' [hdr, bod, wfix 4 t, wfix 32 content, wfix 4 cat, g, n1, n2, ts, nonce, pub, sig]
      [wfix 4 t, h]
      (n1.length = 4 ∧ n2.length ≤ 32 ∧ ∃ b : BitVec 32, g = wfix 4 b ∧
        TailOK x d l (wfix 4 ((cat &&& boostMask) ||| (b &&& ~~~ boostMask)) ++
          (wfix 32 content ++ x.hash .hash256 (hdr ++ n1 ++ n2 ++ bod))) ts nonce pub sig h t) := by
  unfold opsBits'
  simp only [List.cons_append, List.nil_append]
  refine L_roll (k := 6) (v := n1) w (by decide) (by decide) rfl (by simp) (by room w) ?_
  simp only [List.eraseIdx_cons_succ, List.eraseIdx_cons_zero]
  refine L_size (k := 4) w (by decide) (by decide) h1 (by room w) (fun h' hc => h' hc.1) fun e1 => ?_
  refine L_cat w (by room w) ?_
  refine L_roll (k := 6) (v := n2) w (by decide) (by decide) rfl (by simp) (by room w) ?_
  simp only [List.eraseIdx_cons_succ, List.eraseIdx_cons_zero]
  refine L_size_le w h2 (by room w) (fun h' hc => absurd hc.2.1 (by omega)) fun e2 => ?_
  refine L_cat w (by room w) ?_
  refine L_swap w (by room w) ?_
  refine L_cat w (by room w) ?_
  refine L_hash256 w (by room w) ?_
  refine L_swap w (by room w) ?_
  refine L_toalt w (by room w) ?_
  refine L_cat w (by room w) ?_
  refine L_toalt w (by room w) ?_
  refine L_push w (by decide) (by room w) ?_
  refine L_dup w (by room w) ?_
  refine Leads.cons (by decide) st_invert (Room.fits w (by room w)) ?_
  refine L_toalt w (by room w) ?_
  refine Leads.cons (by decide) st_and (Room.fits w (by room w)) ?_
  refine L_swap w (by room w) ?_
  refine L_fromalt w (by room w) ?_
  by_cases hg : g.length = 4
  swap
  · refine Leads.stop (fun hf => fl_and (by rw [wfix_length]; exact hg) hf) fun hc => hg ?_
    obtain ⟨_, _, b, hb, _⟩ := hc
    rw [hb, wfix_length]
  have eg : g = wfix 4 (fromLE 32 g) := by
    have := wfix_fromLE (b := g) (w := 32) (by omega)
    rw [hg] at this
    exact this.symm
  generalize fromLE 32 g = b at eg
  subst eg
  refine Leads.cons (by decide) st_and (Room.fits w (by room w)) ?_
  refine Leads.cons (by decide) st_or (Room.fits w (by room w)) ?_
  refine L_fromalt w (by room w) ?_
  refine L_cat w (by room w) ?_
  refine (run_tail w hd hp h3 h4 (by simp only [List.length_append, wfix_length, w.hash]; omega)).iff ?_
  refine ⟨fun hc => ⟨e1, e2, b, rfl, hc⟩, fun hc => ?_⟩
  obtain ⟨_, _, b', hb, ht⟩ := hc
  have : b = b' := by
    have := congrArg (fromLE 32) hb
    rwa [fromLE_wfix 4 32 rfl, fromLE_wfix 4 32 rfl] at this
  subst this
  exact ht

/-! ### The scripts -/

theorem plain_push_any {c : Cfg} {d : Bytes} (h : d.length < 2 ^ 31)
    (hm : c.minimal = true → d.length ≠ 256 ∧ d.length ≠ 65536) : Plain c (Instr.push d) := by
  by_cases h2 : 2 ≤ d.length ∧ d.length ≤ 75
  · exact plain_push h2.1 h2.2
  match d, h, hm, h2 with
  | [], _, _, _ => exact ⟨by cases c.minimal <;> decide, fun _ => by decide, by decide, by decide, by decide, by decide, by decide⟩
  | [b], _, _, _ =>
    have key : ∀ b : UInt8, ∀ m : Bool, (Instr.push [b]).verify m = .ok ∧ isMinimalInstruction (Instr.push [b]) = true ∧
        (Instr.push [b]).op ≠ 0x6a ∧ (Instr.push [b]).op ≠ 0x68 ∧ (Instr.push [b]).op ≠ 0x67 ∧
        (Instr.push [b]).op ≠ 0x63 ∧ (Instr.push [b]).op ≠ 0x64 := forall_byte _ (by decide +kernel)
    exact ⟨(key b _).1, fun _ => (key b true).2.1, (key b true).2.2⟩
  | b :: b' :: t, h, hm, h2 =>
    have hl : 75 < (b :: b' :: t).length := by
      simp only [List.length_cons] at h2 ⊢
      omega
    generalize b :: b' :: t = d at h hm hl
    have hsm : isSmallNumber d = false := by
      unfold isSmallNumber
      split
      · simp at hl
      · rfl
    rw [push_eq d h, if_neg (by rintro rfl; simp at hl), if_neg (by simp [hsm]), if_neg (by omega)]
    have ne : ∀ o : UInt8, o = 0x4c ∨ o = 0x4d ∨ o = 0x4e → o ≠ 0x6a ∧ o ≠ 0x68 ∧ o ≠ 0x67 ∧ o ≠ 0x63 ∧ o ≠ 0x64 := by
      rintro o (rfl | rfl | rfl) <;> decide
    have mk : ∀ o : UInt8, o = 0x4c ∨ o = 0x4d ∨ o = 0x4e → verifyInstruction ⟨o, d⟩ = .ok →
        (c.minimal = true → isMinimalPush o d = true) → Plain c ⟨o, d⟩ := by
      intro o ho hv hp
      refine ⟨?_, fun hmin => ?_, ne o ho⟩
      · cases hc : c.minimal with
        | false => simp [Instr.verify, hv]
        | true => simp [Instr.verify, hv, hp hc]
      · simp [isMinimalInstruction, hv, hp hmin]
    split
    · refine mk _ (by simp) ?_ fun _ => ?_
      · simp [verifyInstruction, isPushData]; omega
      · simp [isMinimalPush, isPushData, hsm]; omega
    · split
      · refine mk _ (by simp) ?_ fun hmin => ?_
        · simp [verifyInstruction, isPushData]; omega
        · have := hm hmin
          simp [isMinimalPush, isPushData, hsm]; omega
      · refine mk _ (by simp) ?_ fun hmin => ?_
        · simp [verifyInstruction, isPushData]; omega
        · have := hm hmin
          simp [isMinimalPush, isPushData, hsm]; omega

/-- The instructions that do not depend on the output are plain. -/
theorem plain_ops (c : Cfg) (b : Bool) : ∀ i ∈ (if b then opsBits else opsPlain), Plain c i := by
  have key : ∀ b m : Bool, ∀ i ∈ (if b then opsBits else opsPlain), i.verify m = .ok ∧ isMinimalInstruction i = true ∧
      i.op ≠ 0x6a ∧ i.op ≠ 0x68 ∧ i.op ≠ 0x67 ∧ i.op ≠ 0x63 ∧ i.op ≠ 0x64 := by decide +kernel
  intro i hi
  obtain ⟨h1, h2, h3⟩ := key b c.minimal i hi
  exact ⟨h1, fun _ => h2, h3⟩

/-- The values pushed by an output script. -/
def fields (o : Output) : List Bytes :=
  (if o.kind = .contract then [wfix 20 o.hash] else []) ++
    [wfix 4 o.category, wfix 32 o.content, wfix 4 o.target, o.tag, wfix 4 o.userNonce, o.data]

theorem program_fields {o : Output} (h : o.valid = true) : o.program =
    Instr.push boostpow :: op 0x75 :: ((fields o).map Instr.push ++ if o.useBits then opsBits else opsPlain) := by
  have : o.kind ≠ .invalid := by simpa [Output.valid] using h
  unfold Output.program fields
  rw [if_neg this]
  split <;> simp

theorem push_write_bound {d : Bytes} (h : d.length < 2 ^ 31) : (Instr.push d).write.length ≤ d.length + 5 := by
  have hd := push_data_length h
  unfold Instr.write
  split
  · repeat' split
    all_goals simp; omega
  · simp

/-- The values pushed by an input script. -/
def pushed (i : Input) : List Bytes :=
  [i.signature, i.pubkey, wfix 4 i.nonce, wfix 4 i.timestamp, i.extraNonce2, (wfix 4 i.extraNonce1).reverse] ++
    (i.bits.map (wfix 4)).toList ++ (if i.kind = .bounty then [wfix 20 i.hash] else [])

theorem program_pushed {i : Input} (h : i.kind ≠ .invalid) : i.program = (pushed i).map Instr.push := by
  unfold Input.program pushed
  rw [if_neg h]
  cases i.bits <;> by_cases hb : i.kind = .bounty <;> simp [hb]

/-- Running an output script from the values pushed by an input script. -/
theorem run_program {o : Output} {Q : Prop} {rest : List Bytes} {h : Bytes} (w : Wide x) (hv : o.valid = true)
    (hs : s = if o.kind = .contract then rest else h :: rest) (hh : o.kind = .contract → h = wfix 20 o.hash)
    (hrest : rest.length < 2 ^ 30) (hd : o.data.length < 2 ^ 31) (ht : o.tag.length < 2 ^ 31)
    (hr : 2 * o.data.length + 2 * o.tag.length + 3 * h.length + usage rest + 1000 ≤ x.cfg.maxMem)
    (hl : Leads x pre l (if o.useBits then opsBits' else opsPlain')
      ((o.tag ++ h) :: (wfix 4 o.userNonce ++ o.data) :: wfix 4 o.target :: wfix 32 o.content :: wfix 4 o.category :: rest)
      [wfix 4 o.target, h] Q) :
    Leads x pre l o.program s [] Q := by
  have bl : boostpow.length = 8 := rfl
  rw [program_fields hv]
  have e : (if o.useBits then opsBits else opsPlain) = opsHead ++ (if o.useBits then opsBits' else opsPlain') := by
    split
    · exact opsBits_eq
    · exact opsPlain_eq
  rw [e]
  have hu : usage s ≤ h.length + 32 + usage rest := by
    rw [hs]; split
    · omega
    · rw [usage_cons]
  have main : Leads x pre l ([wfix 4 o.category, wfix 32 o.content, wfix 4 o.target, o.tag, wfix 4 o.userNonce, o.data].map
      Instr.push ++ (opsHead ++ (if o.useBits then opsBits' else opsPlain'))) (h :: rest) [] Q := by
    simp only [List.map_cons, List.map_nil, List.cons_append, List.nil_append]
    refine L_push w (by rw [wfix_length]; decide) (by room w) ?_
    refine L_push w (by rw [wfix_length]; decide) (by room w) ?_
    refine L_push w (by rw [wfix_length]; decide) (by room w) ?_
    refine L_push w ht (by room w) ?_
    refine L_push w (by rw [wfix_length]; decide) (by room w) ?_
    refine L_push w hd (by room w) ?_
    exact run_head w hrest hr hl
  refine L_push w (by decide) (by
    unfold Room; simp only [usage_cons, usage_nil, bl]; omega) ?_
  refine L_drop w (by unfold Room; simp only [usage_nil]; omega) ?_
  unfold fields
  by_cases hk : o.kind = .contract
  · rw [if_pos hk] at hs ⊢
    subst hs
    simp only [List.cons_append, List.nil_append, List.map_cons]
    rw [← hh hk]
    exact L_push w (by rw [hh hk, wfix_length]; decide) (by room w) main
  · rw [if_neg hk] at hs ⊢
    subst hs
    exact main

/-- The digest function off the chain, by that on the chain. -/
def digestOf (x : Env) (b : Bytes) : BitVec 256 := fromLE 256 (x.hash .hash256 b)

theorem wfix_digestOf (w : Wide x) (b : Bytes) : wfix 32 (digestOf x b) = x.hash .hash256 b := by
  have := wfix_fromLE (b := x.hash .hash256 b) (w := 256) (by rw [w.hash])
  rwa [w.hash] at this

theorem digestOf_toNat (w : Wide x) (b : Bytes) : (digestOf x b).toNat = leNat (x.hash .hash256 b) := by
  unfold digestOf fromLE
  have := leNat_lt (x.hash .hash256 b)
  rw [w.hash] at this
  rw [BitVec.toNat_ofNat, Nat.mod_eq_of_lt (Nat.lt_of_lt_of_le this (by decide))]

/-- The hash of the key that must sign. -/
def minerHash (o : Output) (i : Input) : BitVec 160 := if o.kind = .bounty then i.hash else o.hash

/-- The version field of the work string. -/
def versionOf (o : Output) : Option (BitVec 32) → BitVec 32
  | some b => (o.category &&& boostMask) ||| (b &&& ~~~ boostMask)
  | none => o.category

/-- When a proof made of both scripts is valid. -/
theorem proof_valid (w : Wide x) {o : Output} {i : Input} (hv : o.valid = true) (hk : i.kind = o.kind)
    (hb : i.bits.isSome = o.useBits) :
    (BProof.of o i).valid (digestOf x) = true ↔
      leNat (x.hash .hash256 ((wfix 4 (versionOf o i.bits) ++
        (wfix 32 o.content ++ x.hash .hash256 ((o.tag ++ wfix 20 (minerHash o i)) ++ (wfix 4 i.extraNonce1).reverse ++
          i.extraNonce2 ++ (wfix 4 o.userNonce ++ o.data)))) ++
        wfix 4 i.timestamp ++ wfix 4 o.target ++ wfix 4 i.nonce)) < expand o.target := by
  have hne : o.kind ≠ .invalid := by simpa [Output.valid] using hv
  obtain ⟨k, hash, cat, ub, content, t, tag, un, data⟩ := o
  obtain ⟨ik, sig, pub, nonce, ts, n2, n1, bits, ih⟩ := i
  simp only at hk hb hne
  subst hk
  cases bits with
  | none =>
    cases ub with
    | true => simp at hb
    | false =>
      simp only [BProof.of, hne, ne_eq, not_true_eq_false, or_self, if_false, Bool.false_eq_true]
      simp only [BProof.valid, Proof.valid, WorkString.valid, Proof.string, Header.write, Proof.merkleRoot,
        Path.deriveRoot, Merkle.rootFrom, Proof.meta, wfix_digestOf w, digestOf_toNat w, Solution.generalPurposeBits,
        header, body, minerHash, versionOf]
      have e : cat &&& -1 = cat := (BitVec.and_allOnes : cat &&& BitVec.allOnes 32 = cat)
      rw [e]
      simp
  | some b =>
    cases ub with
    | false => simp at hb
    | true =>
      simp only [BProof.of, hne, ne_eq, not_true_eq_false, or_self, if_false, if_true]
      simp only [BProof.valid, Proof.valid, WorkString.valid, Proof.string, Header.write, Proof.merkleRoot,
        Path.deriveRoot, Merkle.rootFrom, Proof.meta, wfix_digestOf w, digestOf_toNat w, Solution.generalPurposeBits,
        header, body, minerHash, versionOf]
      simp

theorem pushes_bound (vs : List Bytes) (h : ∀ v ∈ vs, v.length < 2 ^ 31) :
    ((vs.map Instr.push).flatMap Instr.write).length ≤ vs.flatten.length + 5 * vs.length := by
  induction vs with
  | nil => simp
  | cons v vs ih =>
    have h1 := push_write_bound (h v (by simp))
    have h2 := ih fun v' hv' => h v' (by simp [hv'])
    simp only [List.map_cons, List.flatMap_cons, List.length_append, List.flatten_cons, List.length_cons]
    omega

theorem mem_flatten_length {vs : List Bytes} {v : Bytes} (h : v ∈ vs) : v.length ≤ vs.flatten.length := by
  induction vs with
  | nil => simp at h
  | cons u vs ih =>
    simp only [List.mem_cons] at h
    simp only [List.flatten_cons, List.length_append]
    rcases h with rfl | h
    · omega
    · have := ih h; omega

theorem usage_flatten (vs : List Bytes) : usage vs = vs.flatten.length + 32 * vs.length := by
  induction vs with
  | nil => rfl
  | cons v vs ih => rw [usage_cons, ih]; simp only [List.flatten_cons, List.length_append, List.length_cons]; omega

theorem usage_reverse (vs : List Bytes) : usage vs.reverse = usage vs := by
  have key : ∀ a b : List Bytes, usage (a ++ b) = usage a + usage b := by
    intro a b
    rw [usage_flatten, usage_flatten, usage_flatten]
    simp only [List.flatten_append, List.length_append]
    omega
  induction vs with
  | nil => rfl
  | cons v vs ih =>
    rw [List.reverse_cons, key, ih, usage_cons, usage_cons, usage_nil]
    omega

/-- An output is redeemed by an input: the proof of work made of both scripts is valid, by
a key with the right hash, and it is signed. -/
def Redeems (x : Env) (d : Doc) (o : Output) (i : Input) : Prop :=
  i.valid = true ∧ i.kind = o.kind ∧ i.bits.isSome = o.useBits ∧
    (BProof.of o i).valid (digestOf x) = true ∧
    wfix 20 (minerHash o i) = x.hash .hash160 i.pubkey ∧
    (verdict (d.verifySig i.signature i.pubkey (cleanupScriptCode o.program i.signature) x.cfg.flags)).verified = true

/-- How many values an output asks for. -/
def arity (o : Output) : Nat := 6 + (if o.useBits then 1 else 0) + (if o.kind = .bounty then 1 else 0)

theorem wfix_four {b : Bytes} (h : b.length = 4) : wfix 4 (fromLE 32 b) = b := by
  have := wfix_fromLE (b := b) (w := 32) (by omega)
  rwa [h] at this

theorem wfix_twenty {b : Bytes} (h : b.length = 20) : wfix 20 (fromLE 160 b) = b := by
  have := wfix_fromLE (b := b) (w := 160) (by omega)
  rwa [h] at this

/-- What the script finds out about the values. -/
theorem redeems_iff (w : Wide x) {d : Doc} {o : Output} (hv : o.valid = true)
    {sig pub nonce ts n2 n1 h : Bytes} {gs hs : List Bytes}
    (hgs : gs.length = if o.useBits then 1 else 0)
    (hhs : hs = if o.kind = .bounty then [h] else [])
    (hh : o.kind = .contract → h = wfix 20 o.hash) :
    (∃ i, pushed i = [sig, pub, nonce, ts, n2, n1] ++ gs ++ hs ∧ 3 ≤ o.target.exponent ∧ o.target.exponent ≤ 32 ∧
      Redeems x d o i) ↔
    n1.length = 4 ∧ (if o.useBits then n2.length ≤ 32 else n2.length = 8) ∧
      ∃ v : BitVec 32, (if o.useBits then ∃ b : BitVec 32, gs = [wfix 4 b] ∧
          v = (o.category &&& boostMask) ||| (b &&& ~~~ boostMask) else v = o.category) ∧
        TailOK x d o.program (wfix 4 v ++ (wfix 32 o.content ++
          x.hash .hash256 ((o.tag ++ h) ++ n1 ++ n2 ++ (wfix 4 o.userNonce ++ o.data)))) ts nonce pub sig h o.target := by
  have hne : o.kind ≠ .invalid := by simpa [Output.valid] using hv
  constructor
  · rintro ⟨i, hp, e3, e32, hval, hk, hb, hw, hm, hsig⟩
    rw [proof_valid w hv hk hb] at hw
    have hiv : i.extraNonce2.length = 8 ∨ i.bits.isSome = true ∧ i.extraNonce2.length ≤ 32 := by
      simp only [Input.valid, Bool.and_eq_true, Bool.or_eq_true, beq_iff_eq, decide_eq_true_eq] at hval
      exact hval.2
    unfold pushed at hp
    simp only [List.cons_append, List.nil_append, List.cons.injEq] at hp
    obtain ⟨rfl, rfl, rfl, rfl, rfl, rfl, hp⟩ := hp
    have hgh : (i.bits.map (wfix 4)).toList = gs ∧ (if i.kind = .bounty then [wfix 20 i.hash] else []) = hs := by
      refine List.append_inj hp ?_
      rw [hgs, ← hb]
      cases i.bits <;> rfl
    obtain ⟨hg, hh'⟩ := hgh
    have hmh : wfix 20 (minerHash o i) = h := by
      unfold minerHash
      by_cases hbo : o.kind = .bounty
      · rw [if_pos hbo]
        rw [if_pos hbo] at hhs
        rw [hk, if_pos hbo, hhs] at hh'
        simpa using hh'
      · rw [if_neg hbo]
        exact (hh (by cases hkk : o.kind <;> simp_all)).symm
    rw [hmh] at hw hm
    refine ⟨by simp, ?_, ?_⟩
    · split
      · rcases hiv with h8 | h8
        · omega
        · exact h8.2
      · rename_i hu
        rcases hiv with h8 | h8
        · exact h8
        · rw [hb] at h8; exact absurd h8.1 hu
    · cases hbits : i.bits with
      | none =>
        rw [hbits] at hb hw
        rw [← hb]
        exact ⟨o.category, by simp, wfix_length _ _, wfix_length _ _, e3, e32, hw, hm.symm, hsig⟩
      | some b =>
        rw [hbits] at hb hw hg
        rw [← hb]
        refine ⟨_, ?_, wfix_length _ _, wfix_length _ _, e3, e32, hw, hm.symm, hsig⟩
        simp only [Option.isSome_some, if_true]
        exact ⟨b, by rw [← hg]; rfl, rfl⟩
  · rintro ⟨l1, l2, v, hvv, lt, ln, e3, e32, hw, hm, hsig⟩
    have l20 : h.length = 20 := by rw [← hm, w.hash']
    have r1 : (wfix 4 (fromLE 32 n1.reverse)).reverse = n1 := by
      rw [wfix_four (by simpa using l1), List.reverse_reverse]
    let bits : Option (BitVec 32) := if o.useBits then gs.head?.map (fromLE 32) else none
    let i : Input := ⟨o.kind, sig, pub, fromLE 32 nonce, fromLE 32 ts, n2, fromLE 32 n1.reverse, bits, fromLE 160 h⟩
    have hbits : bits.isSome = o.useBits := by
      simp only [bits]
      cases hu : o.useBits with
      | false => simp
      | true =>
        rw [hu] at hgs
        match gs, hgs with
        | [g], _ => rfl
    have hpush : pushed i = [sig, pub, nonce, ts, n2, n1] ++ gs ++ hs := by
      unfold pushed
      simp only [i, wfix_four ln, wfix_four lt, r1, wfix_twenty l20, hhs]
      congr 2
      simp only [bits]
      cases hu : o.useBits with
      | false =>
        rw [hu] at hgs
        simp at hgs
        simp [hgs]
      | true =>
        rw [hu] at hvv
        obtain ⟨b, rfl, _⟩ := hvv
        simp [fromLE_wfix 4 32 rfl]
    have hmh : wfix 20 (minerHash o i) = h := by
      unfold minerHash
      by_cases hbo : o.kind = .bounty
      · rw [if_pos hbo]
        exact wfix_twenty l20
      · rw [if_neg hbo]
        exact (hh (by cases hkk : o.kind <;> simp_all)).symm
    refine ⟨i, hpush, e3, e32, ?_, rfl, hbits, ?_, hmh.trans hm.symm, hsig⟩
    · simp only [Input.valid, Bool.and_eq_true, Bool.or_eq_true, beq_iff_eq, decide_eq_true_eq]
      refine ⟨by simpa [i] using hne, ?_⟩
      simp only [i, hbits]
      split at l2
      · rename_i hu; exact .inr ⟨hu, l2⟩
      · exact .inl l2
    · rw [proof_valid w hv rfl hbits, hmh]
      simp only [i, wfix_four ln, wfix_four lt, r1]
      have : versionOf o bits = v := by
        simp only [bits]
        cases hu : o.useBits with
        | false => rw [hu] at hvv; simp at hvv; simp [hvv, versionOf]
        | true =>
          rw [hu] at hvv
          obtain ⟨b, rfl, rfl⟩ := hvv
          simp [fromLE_wfix 4 32 rfl, versionOf]
      rw [this]
      exact hw

/-- **C94**: take a Boost output, and an input script that pushes any values of the right
number.  Evaluation ends, and with success exactly if the values are those of an input that
redeems the output, whose proof of work together with the output is valid off the chain.
The exponent of the target must also be from 3 to 32, which is not asked off the chain. -/
theorem C94_accepts_partial (x : Env) (d : Doc) (hd : x.doc = some d) (w : Wide x) (o : Output) (hv : o.valid = true)
    (vs : List Bytes) (hlen : vs.length = arity o)
    (hsize : vs.flatten.length + o.tag.length + o.data.length < 2 ^ 28)
    (hmem : 3 * (vs.flatten.length + o.tag.length + o.data.length) + 4000 ≤ x.cfg.maxMem)
    (hops : 300 ≤ x.cfg.maxOps)
    (hmin : x.cfg.minimal = true → ∀ v ∈ o.tag :: o.data :: vs, v.length ≠ 256 ∧ v.length ≠ 65536)
    (n : Nat) (hn : 300 ≤ n) :
    ∃ r, evaluate x n ((vs.map Instr.push).flatMap Instr.write) (o.program.flatMap Instr.write) = .done r ∧
      (r.verified = true ↔
        ∃ i, pushed i = vs ∧ 3 ≤ o.target.exponent ∧ o.target.exponent ≤ 32 ∧ Redeems x d o i) := by
  have hne : o.kind ≠ .invalid := by simpa [Output.valid] using hv
  have hvl : ∀ v ∈ vs, v.length < 2 ^ 31 := fun v hm => by have := mem_flatten_length hm; omega
  have vlen : vs.length ≤ 8 := by rw [hlen]; unfold arity; split <;> split <;> omega
  have hpl : ∀ i ∈ o.program, Plain x.cfg i := by
    rw [program_fields hv]
    intro i hi
    simp only [List.mem_cons, List.mem_append, List.mem_map] at hi
    rcases hi with rfl | rfl | ⟨f, hf, rfl⟩ | hi
    · exact plain_push (by decide) (by decide)
    · exact ⟨by cases x.cfg.minimal <;> decide, fun _ => by decide, by decide, by decide, by decide, by decide, by decide⟩
    · have key : f = o.tag ∨ f = o.data ∨ (2 ≤ f.length ∧ f.length ≤ 75) := by
        unfold fields at hf
        simp only [List.mem_append, List.mem_cons, List.not_mem_nil, or_false] at hf
        rcases hf with hf | rfl | rfl | rfl | rfl | rfl | rfl
        · split at hf
          · simp only [List.mem_cons, List.not_mem_nil, or_false] at hf
            rw [hf, wfix_length]; omega
          · simp at hf
        all_goals simp
      rcases key with rfl | rfl | h2
      · exact plain_push_any (by omega) fun hm => hmin hm _ (by simp)
      · exact plain_push_any (by omega) fun hm => hmin hm _ (by simp)
      · exact plain_push h2.1 h2.2
    · exact plain_ops _ _ i hi
  have hcl : ∀ i ∈ o.program, i.Carriable ∧ i.data.length + 5 < 2 ^ 32 := by
    rw [program_fields hv]
    intro i hi
    simp only [List.mem_cons, List.mem_append, List.mem_map] at hi
    rcases hi with rfl | rfl | ⟨f, hf, rfl⟩ | hi
    · exact push_ok (by decide)
    · exact op_carriable' (by decide)
    · have key : f.length < 2 ^ 31 := by
        unfold fields at hf
        simp only [List.mem_append, List.mem_cons, List.not_mem_nil, or_false] at hf
        rcases hf with hf | rfl | rfl | rfl | rfl | rfl | rfl
        · split at hf
          · simp only [List.mem_cons, List.not_mem_nil, or_false] at hf
            rw [hf, wfix_length]; decide
          · simp at hf
        all_goals (try rw [wfix_length]); omega
      exact push_ok key
    · refine ops_ok i ?_
      rw [List.mem_append]
      split at hi
      · exact .inl hi
      · exact .inr hi
  have hll : (o.program.flatMap Instr.write).length ≤ o.tag.length + o.data.length + 300 := by
    rw [Output.length_eq o hne]
    have h1 := push_write_bound (d := o.tag) (by omega)
    have h2 := push_write_bound (d := o.data) (by omega)
    split <;> split <;> omega
  have hpl' : o.program.length < 200 := by
    rw [program_fields hv]
    have h1 : (fields o).length ≤ 7 := by unfold fields; split <;> simp
    have h2 : (if o.useBits then opsBits else opsPlain).length ≤ 120 := by split <;> decide
    simp only [List.length_cons, List.length_append, List.length_map]
    omega
  have hul := pushes_bound vs hvl
  have hp2 : isP2SH o.program = .ok false := by
    unfold isP2SH
    rw [compile_ok _ (fun i hi => (hcl i hi).1) (fun i hi => (hcl i hi).2), program_fields hv]
    have : (Instr.push boostpow).write = 0x08 :: boostpow := by decide +kernel
    simp only [List.flatMap_cons, this]
    simp [isP2SHBytes, Except.map]
  have hmapd : (vs.map Instr.push).map Instr.pushData = vs := by
    rw [List.map_map]
    refine (List.map_congr_left fun v hm => ?_).trans (List.map_id _)
    exact push_pushData v (hvl v hm)
  have hfit : Fits x.cfg vs.reverse [] := by
    rw [w.fits, usage_reverse, usage_flatten, usage_nil]
    omega
  have hev := evaluate_plain (x := x) (u := vs.map Instr.push) (l := o.program)
    (fun i hi => by
      obtain ⟨v, hm, rfl⟩ := List.mem_map.mp hi
      exact plain_push_any (hvl v hm) fun hc => hmin hc v (by simp [hm]))
    hpl (fun i hi => by
      obtain ⟨v, hm, rfl⟩ := List.mem_map.mp hi
      exact push_carriable v (hvl v hm)) (fun i hi => (hcl i hi).1)
    (by
      unfold isPushProgram
      rw [List.all_eq_true]
      intro i hi
      obtain ⟨v, hm, rfl⟩ := List.mem_map.mp hi
      exact push_isPush' (hvl v hm)) hp2 (by omega) (by rw [hmapd]; exact hfit) (by omega) (n - vs.length - 1)
  rw [hmapd, machineAt_start, ← mAt_machineAt, List.length_map,
    show vs.length + (n - vs.length - 1 + 1) = n by omega] at hev
  rw [hev]
  clear hev
  generalize hpre : (vs.map Instr.push).flatMap Instr.write ++ [0xab] = pre
  have hprel : pre.length ≤ vs.flatten.length + 41 := by
    rw [← hpre, List.length_append]
    simp only [List.length_singleton]
    omega
  -- the values
  have hspl : ∃ sig pub nonce ts n2 n1 h gs hs, vs = [sig, pub, nonce, ts, n2, n1] ++ gs ++ hs ∧
      gs.length = (if o.useBits then 1 else 0) ∧ hs = (if o.kind = .bounty then [h] else []) ∧
      (o.kind = .contract → h = wfix 20 o.hash) := by
    unfold arity at hlen
    cases hu : o.useBits <;> cases hk : o.kind <;> simp only [hu, hk] at hlen <;> simp at hlen
    · exact absurd hk hne
    · match vs, hlen with
      | [a, b, c, e, f, g, h], _ => exact ⟨a, b, c, e, f, g, h, [], [h], by simp⟩
    · match vs, hlen with
      | [a, b, c, e, f, g], _ => exact ⟨a, b, c, e, f, g, wfix 20 o.hash, [], [], by simp⟩
    · exact absurd hk hne
    · match vs, hlen with
      | [a, b, c, e, f, g, y, h], _ => exact ⟨a, b, c, e, f, g, h, [y], [h], by simp⟩
    · match vs, hlen with
      | [a, b, c, e, f, g, y], _ => exact ⟨a, b, c, e, f, g, wfix 20 o.hash, [y], [], by simp⟩
  obtain ⟨sig, pub, nonce, ts, n2, n1, h, gs, hs, rfl, hgs, hhs, hh⟩ := hspl
  have hflat : sig.length + pub.length + nonce.length + ts.length + n2.length + n1.length + gs.flatten.length +
      hs.flatten.length = ([sig, pub, nonce, ts, n2, n1] ++ gs ++ hs).flatten.length := by
    simp only [List.flatten_append, List.length_append, List.flatten_cons, List.flatten_nil, List.length_nil]
    omega
  have hhl : h.length ≤ hs.flatten.length + 20 := by
    cases hk : o.kind
    · exact absurd hk hne
    · rw [hhs, hk]; simp
    · rw [hh hk, wfix_length]; omega
  have hgl : gs.length ≤ 1 := by rw [hgs]; split <;> omega
  rw [redeems_iff w hv hgs hhs hh]
  have hrun : Leads x pre o.program o.program ([sig, pub, nonce, ts, n2, n1] ++ gs ++ hs).reverse []
      (n1.length = 4 ∧ (if o.useBits then n2.length ≤ 32 else n2.length = 8) ∧
        ∃ v : BitVec 32, (if o.useBits then ∃ b : BitVec 32, gs = [wfix 4 b] ∧
          v = (o.category &&& boostMask) ||| (b &&& ~~~ boostMask) else v = o.category) ∧
        TailOK x d o.program (wfix 4 v ++ (wfix 32 o.content ++
          x.hash .hash256 ((o.tag ++ h) ++ n1 ++ n2 ++ (wfix 4 o.userNonce ++ o.data)))) ts nonce pub sig h o.target) := by
    refine run_program (h := h) (rest := gs ++ [n1, n2, ts, nonce, pub, sig]) w hv ?_ hh
      (by simp; omega) (by omega) (by omega) ?_ ?_
    · have e : gs.reverse = gs := by
        match gs, hgl with
        | [], _ => rfl
        | [g], _ => rfl
      rw [hhs]
      cases hk : o.kind
      · exact absurd hk hne
      · simp [e]
      · simp [e]
    · rw [usage_flatten]
      simp only [List.flatten_append, List.length_append, List.flatten_cons, List.flatten_nil, List.length_nil,
        List.length_cons]
      omega
    · cases hu : o.useBits with
      | false =>
        have e : gs = [] := by rw [hu] at hgs; simpa using hgs
        subst e
        simp only [Bool.false_eq_true, if_false, List.nil_append]
        refine (run_plain w hd hpl (by omega) (by omega) (by omega) (by omega) ?_).iff ?_
        · simp only [List.length_append, wfix_length]
          omega
        · constructor
          · rintro ⟨a1, a2, a3⟩; exact ⟨a1, a2, _, rfl, a3⟩
          · rintro ⟨a1, a2, v, rfl, a3⟩; exact ⟨a1, a2, a3⟩
      | true =>
        obtain ⟨g, rfl⟩ : ∃ g, gs = [g] := by
          rw [hu] at hgs
          match gs, hgs with
          | [g], _ => exact ⟨g, rfl⟩
        have hg : [g].flatten.length = g.length := by simp
        simp only [if_true, List.cons_append, List.nil_append]
        refine (run_bits w hd hpl (by omega) (by omega) (by omega) (by omega) ?_).iff ?_
        · simp only [List.length_append, wfix_length]
          omega
        · constructor
          · rintro ⟨a1, a2, b, rfl, a3⟩; exact ⟨a1, a2, _, ⟨b, rfl, rfl⟩, a3⟩
          · rintro ⟨a1, a2, v, ⟨b, hb, rfl⟩, a3⟩
            exact ⟨a1, a2, b, by simpa using hb, a3⟩
  obtain ⟨st, m, r, e1, e2, e3⟩ := hrun [] 1 (n - ([sig, pub, nonce, ts, n2, n1] ++ gs ++ hs).length - 1) rfl
    (fun i hi => (hcl i hi).1) (by rw [List.length_append]; omega) (by omega) (by omega) hfit
  simp only [List.flatMap_nil, List.append_nil] at e1
  refine ⟨r, ?_, e3⟩
  rw [e1]
  simp only [outOf, e2]

/-- **C94**: the same for the scripts that are written. -/
theorem C94_scripts_partial (x : Env) (d : Doc) (hd : x.doc = some d) (w : Wide x) (o : Output) (i : Input)
    (hv : o.valid = true) (hk : i.kind = o.kind) (hb : i.bits.isSome = o.useBits) (hiv : i.valid = true)
    (hpub : i.pubkey.length = 33 ∨ i.pubkey.length = 65) (hsig : i.signature.length ≤ 73)
    (hsize : 3 * (o.tag.length + o.data.length) + 6000 ≤ x.cfg.maxMem)
    (hsize' : o.tag.length + o.data.length < 2 ^ 27) (hops : 300 ≤ x.cfg.maxOps)
    (hmin : x.cfg.minimal = true → ∀ v ∈ [o.tag, o.data], v.length ≠ 256 ∧ v.length ≠ 65536)
    (n : Nat) (hn : 300 ≤ n) (ux lx : Bytes) (hu : i.write = .ok ux) (hl : o.write = .ok lx) :
    ∃ r, evaluate x n ux lx = .done r ∧
      (r.verified = true ↔ 3 ≤ o.target.exponent ∧ o.target.exponent ≤ 32 ∧ Redeems x d o i) := by
  have hne : i.kind ≠ .invalid := by rw [hk]; simpa [Output.valid] using hv
  have hn2 : i.extraNonce2.length ≤ 32 := by
    simp only [Input.valid, Bool.and_eq_true, Bool.or_eq_true, beq_iff_eq, decide_eq_true_eq] at hiv
    rcases hiv.2 with h | h <;> omega
  rw [i.write_eq (by omega) hpub (by omega), program_pushed hne] at hu
  rw [o.write_eq (by omega) (by omega)] at hl
  injection hu with hu
  injection hl with hl
  subst hu
  subst hl
  have hvs : ∀ v ∈ pushed i, v.length ≤ 73 := by
    intro v hv
    unfold pushed at hv
    simp only [List.mem_append, List.mem_cons, List.not_mem_nil, or_false] at hv
    rcases hv with ((rfl | rfl | rfl | rfl | rfl | rfl) | hv) | hv
    · omega
    · omega
    · rw [wfix_length]; omega
    · rw [wfix_length]; omega
    · omega
    · rw [List.length_reverse, wfix_length]; omega
    · cases hbb : i.bits with
      | none => rw [hbb] at hv; simp at hv
      | some b => rw [hbb] at hv; simp at hv; rw [hv, wfix_length]; omega
    · split at hv
      · simp at hv; rw [hv, wfix_length]; omega
      · simp at hv
  have hlen : (pushed i).length = arity o := by
    unfold pushed arity
    rw [← hk, ← hb]
    cases i.bits <;> by_cases hbo : i.kind = .bounty <;> simp [hbo]
  have hfl : ∀ vs : List Bytes, (∀ v ∈ vs, v.length ≤ 73) → vs.flatten.length ≤ 73 * vs.length := by
    intro vs h
    induction vs with
    | nil => simp
    | cons v vs ih =>
      have h1 := h v (by simp)
      have h2 := ih fun v' hv' => h v' (by simp [hv'])
      simp only [List.flatten_cons, List.length_append, List.length_cons]
      omega
  have hf := hfl _ hvs
  have ha : arity o ≤ 8 := by unfold arity; split <;> split <;> omega
  rw [hlen] at hf
  obtain ⟨r, h1, h2⟩ := C94_accepts_partial x d hd w o hv (pushed i) hlen (by omega) (by omega) hops
    (fun hm v hv' => by
      simp only [List.mem_cons] at hv'
      rcases hv' with rfl | rfl | hv'
      · exact hmin hm _ (by simp)
      · exact hmin hm _ (by simp)
      · have := hvs v hv'; omega) n hn
  refine ⟨r, h1, h2.trans ?_⟩
  constructor
  · rintro ⟨j, hj, h3, h32, hr⟩
    refine ⟨h3, h32, ?_⟩
    have : j.bits.isSome = i.bits.isSome := by rw [hr.2.2.1, hb]
    have hkk : j.kind = i.kind := by rw [hr.2.1, hk]
    have e4 : ∀ a b : BitVec 32, wfix 4 a = wfix 4 b → a = b := fun a b h => by
      rw [← fromLE_wfix 4 32 rfl a, ← fromLE_wfix 4 32 rfl b, h]
    unfold pushed at hj
    simp only [List.cons_append, List.nil_append, List.cons.injEq] at hj
    obtain ⟨j1, j2, j3, j4, j5, j6, hj⟩ := hj
    have hgh := List.append_inj hj (by
      cases hb1 : j.bits <;> cases hb2 : i.bits <;> simp [hb1, hb2] at this ⊢)
    have j3' := e4 _ _ j3
    have j4' := e4 _ _ j4
    have j6' := e4 _ _ (List.reverse_injective j6)
    have j7 : j.bits = i.bits := by
      have := hgh.1
      cases hb1 : j.bits <;> cases hb2 : i.bits <;> simp [hb1, hb2] at this ⊢
      exact e4 _ _ this
    have j8 : o.kind = .bounty → j.hash = i.hash := by
      intro hbo
      have := hgh.2
      rw [hkk, hk, if_pos hbo, if_pos hbo] at this
      injection this with this
      rw [← fromLE_wfix 20 160 rfl j.hash, ← fromLE_wfix 20 160 rfl i.hash, this]
    unfold Redeems at hr ⊢
    have hmh : minerHash o j = minerHash o i := by
      unfold minerHash
      split
      · rename_i hbo; exact j8 hbo
      · rfl
    obtain ⟨r1, r2, r3, r4, r5, r6⟩ := hr
    refine ⟨hiv, hk, hb, ?_, ?_, ?_⟩
    · rw [proof_valid w hv r2 r3] at r4
      rw [proof_valid w hv hk hb, ← j7, ← j3', ← j4', ← j6', ← j5, ← hmh]
      exact r4
    · rw [← hmh, ← j2]; exact r5
    · rw [← j1, ← j2]; exact r6
  · rintro ⟨h3, h32, hr⟩
    exact ⟨i, rfl, h3, h32, hr⟩

/-- **C94**, refuted: an output whose target has an exponent below 3 or above 32 cannot be
redeemed by any values, whatever the proof of work. -/
theorem C94_false_target (x : Env) (d : Doc) (hd : x.doc = some d) (w : Wide x) (o : Output) (hv : o.valid = true)
    (ht : o.target.exponent < 3 ∨ 32 < o.target.exponent)
    (vs : List Bytes) (hlen : vs.length = arity o)
    (hsize : vs.flatten.length + o.tag.length + o.data.length < 2 ^ 28)
    (hmem : 3 * (vs.flatten.length + o.tag.length + o.data.length) + 4000 ≤ x.cfg.maxMem)
    (hops : 300 ≤ x.cfg.maxOps)
    (hmin : x.cfg.minimal = true → ∀ v ∈ o.tag :: o.data :: vs, v.length ≠ 256 ∧ v.length ≠ 65536)
    (n : Nat) (hn : 300 ≤ n) :
    ∃ r, evaluate x n ((vs.map Instr.push).flatMap Instr.write) (o.program.flatMap Instr.write) = .done r ∧
      r.verified = false := by
  obtain ⟨r, h1, h2⟩ := C94_accepts_partial x d hd w o hv vs hlen hsize hmem hops hmin n hn
  refine ⟨r, h1, ?_⟩
  cases hr : r.verified with
  | false => rfl
  | true =>
    obtain ⟨_, _, h3, h32, _⟩ := h2.mp hr
    omega

/-! ### Instances -/

/-- All signatures are good. -/
def sampleDoc : Doc := ⟨fun _ => true, fun _ => true, fun _ _ _ _ => ⟨.ok, true⟩⟩

/-- All digests are zero. -/
def sampleEnv : Env :=
  ⟨⟨0x1200000#32, 500, 20, 100000, 750000⟩,
    fun h _ => match h with | .hash256 => List.replicate 32 0 | _ => List.replicate 20 0, some sampleDoc⟩

theorem sampleWide : Wide sampleEnv := ⟨by decide, by decide, fun _ => rfl, fun _ => rfl⟩

def sampleOut (t : Compact) : Output := ⟨.bounty, 0, 5, true, 7, t, [1, 2, 3], 9, [4, 5]⟩

def sampleIn : Input := ⟨.bounty, [0x30, 0x01], List.replicate 33 2, 1, 2, [1, 2, 3], 4, some 0x2000, 0⟩

/-- A zero digest proves any work. -/
theorem sample_redeems (t : Compact) (h : 0 < expand t) : Redeems sampleEnv sampleDoc (sampleOut t) sampleIn := by
  refine ⟨by decide, rfl, rfl, ?_, ?_, rfl⟩
  swap
  · exact (show wfix 20 (0 : BitVec 160) = List.replicate 20 0 by decide)
  rw [proof_valid sampleWide rfl rfl rfl]
  exact (show leNat (List.replicate 32 0) < _ by rw [leNat_zeros]; exact h)

example : ∃ r, evaluate sampleEnv 300 (sampleIn.program.flatMap Instr.write)
    ((sampleOut 0x1d00ffff#32).program.flatMap Instr.write) = .done r ∧ r.verified = true := by
  obtain ⟨r, h1, h2⟩ := C94_scripts_partial sampleEnv sampleDoc rfl sampleWide (sampleOut 0x1d00ffff#32) sampleIn rfl rfl
    rfl (by decide) (.inl rfl) (by decide) (by decide) (by decide) (by decide) (fun h => absurd h (by decide)) 300
    (Nat.le_refl _) _ _ (Input.write_eq _ (by decide) (.inl rfl) (by decide)) (Output.write_eq _ (by decide) (by decide))
  exact ⟨r, h1, h2.mpr ⟨by decide, by decide, sample_redeems _ (by decide +kernel)⟩⟩

/-- **C94**, refuted: a proof of work valid off the chain, with the right key and a good
signature, that the output script refuses. -/
theorem C94_false : ∃ x d o i, x.doc = some d ∧ Wide x ∧ Redeems x d o i ∧
    ∃ r, evaluate x 300 (i.program.flatMap Instr.write) (o.program.flatMap Instr.write) = .done r ∧ r.verified = false := by
  refine ⟨sampleEnv, sampleDoc, sampleOut 0x2100ffff#32, sampleIn, rfl, sampleWide, sample_redeems _ (by decide +kernel), ?_⟩
  rw [program_pushed (by decide)]
  exact C94_false_target sampleEnv sampleDoc rfl sampleWide (sampleOut 0x2100ffff#32) rfl (.inr (by decide)) (pushed sampleIn)
    (by decide) (by decide) (by decide) (by decide) (fun h => absurd h (by decide)) 300 (Nat.le_refl _)

end Verif.Boost
