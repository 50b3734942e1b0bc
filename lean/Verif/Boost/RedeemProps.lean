import Verif.Boost.Redeem
import Verif.Boost.ExecProps
import Verif.Pay.RedeemProps

/-
C107: redeeming a Boost puzzle with a solution.  C108: what a candidate holds.
-/

namespace Verif.Boost

open Verif Script Work Sig Pay Keys Text

variable {P : Type} [AddCommGroup P]

/-! ### Lemmas -/

theorem program_plain {o : Output} (hv : o.valid = true) (ht : o.tag.length < 2 ^ 31) (hd : o.data.length < 2 ^ 31) :
    ∀ i ∈ o.program, Plain ⟨0, 0, 0, 0, 0⟩ i := by
  rw [program_fields hv]
  intro i hi
  simp only [List.mem_cons, List.mem_append, List.mem_map] at hi
  rcases hi with rfl | rfl | ⟨f, hf, rfl⟩ | hi
  · exact plain_push (by decide) (by decide)
  · exact ⟨by decide, fun _ => by decide, by decide, by decide, by decide, by decide, by decide⟩
  · have key : f.length < 2 ^ 31 := by
      unfold fields at hf
      simp only [List.mem_append, List.mem_cons, List.not_mem_nil, or_false] at hf
      rcases hf with hf | rfl | rfl | rfl | rfl | rfl | rfl
      · split at hf
        · simp only [List.mem_cons, List.not_mem_nil, or_false] at hf
          rw [hf, wfix_length]; decide
        · simp at hf
      all_goals (try rw [wfix_length]); omega
    exact plain_push_any key fun hm => absurd hm (by decide)
  · exact plain_ops _ _ i hi

theorem program_carriable {o : Output} (hv : o.valid = true) (ht : o.tag.length < 2 ^ 31) (hd : o.data.length < 2 ^ 31) :
    ∀ i ∈ o.program, i.Carriable := by
  rw [program_fields hv]
  intro i hi
  simp only [List.mem_cons, List.mem_append, List.mem_map] at hi
  rcases hi with rfl | rfl | ⟨f, hf, rfl⟩ | hi
  · exact (push_ok (by decide)).1
  · exact (op_carriable' (by decide)).1
  · have key : f.length < 2 ^ 31 := by
      unfold fields at hf
      simp only [List.mem_append, List.mem_cons, List.not_mem_nil, or_false] at hf
      rcases hf with hf | rfl | rfl | rfl | rfl | rfl | rfl
      · split at hf
        · simp only [List.mem_cons, List.not_mem_nil, or_false] at hf
          rw [hf, wfix_length]; decide
        · simp at hf
      all_goals (try rw [wfix_length]); omega
    exact (push_ok key).1
  · refine (ops_ok i ?_).1
    rw [List.mem_append]
    split at hi
    · exact .inl hi
    · exact .inr hi

/-- The output script read back as a program. -/
theorem program_decompile {o : Output} (hv : o.valid = true) (ht : o.tag.length < 2 ^ 31) (hd : o.data.length < 2 ^ 31) :
    decompile (o.program.flatMap Instr.write) = .ok o.program := by
  have := decompile_plain (program_plain hv ht hd) (program_carriable hv ht hd)
  unfold decompileS at this
  cases h : decompile (o.program.flatMap Instr.write) with
  | error e => rw [h] at this; cases this
  | ok l => rw [h] at this; cases this; rfl

theorem boost_signature_length (E : Ecdsa P) (sk : Bytes) (h : BitVec 256) (d : UInt8) (hk : secretOk sk = true) :
    (E.sign sk h ++ [d]).length ≤ 73 := by
  obtain ⟨r, s, hr, hs, _, _, e⟩ := E.sign_der sk h hk
  rw [e]
  simp only [derBytes, List.length_append, List.length_cons, List.length_nil]
  omega

/-! ### Specification -/

/-- A puzzle whose outputs are Boost outputs `o`, with a key that may redeem them: it is a key of the curve, and the one named if
one is named.  Its hash is not zero. -/
structure Ready (E : Ecdsa P) (hash160 : Bytes → Bytes) (p : BPuzzle) (o : Output) : Prop where
  output : o.valid = true ∧ o.tag.length ≤ 20 ∧ o.data.length < 2 ^ 26
  script : o.write = .ok p.candidate.script
  bounty : o.kind = .bounty → o.hash = 0
  key : secretOk p.key.key = true
  named : o.kind = .contract → o.hash = digest160 hash160 (E.pubkeyOf p.key)
  nonzero : digest160 hash160 (E.pubkeyOf p.key) ≠ 0
  /-- The amounts are amounts, and together fit 63 bits. -/
  amounts : (∀ u ∈ p.candidate.prevouts, 0 ≤ u.value.toInt) ∧ (p.candidate.prevouts.map fun u => u.value.toInt).sum < 2 ^ 63

/-- A solution of the form the output asks for. -/
structure Shaped (o : Output) (x : Solution) : Prop where
  time : x.timestamp ≠ 0
  bits : x.bits.isSome = true → o.useBits = true
  nonce : x.extraNonce2.length = 8 ∨ o.useBits = true ∧ x.extraNonce2.length ≤ 32

/-- Where the scripts are evaluated: after genesis, with the hash functions the puzzle was solved and signed with, flags that permit
the signature, and enough room. -/
structure Ordinary (hash160 : Bytes → Bytes) (H : Bytes → BitVec 256) (pub : Bytes) (o : Output) (x : Env) : Prop where
  wide : Wide x
  hash160 : x.hash .hash160 = hash160
  hash256 : ∀ b, fromLE 256 (x.hash .hash256 b) = H b
  flags : Permitted x.cfg.flags 0x41 pub
  room : 3 * (o.tag.length + o.data.length) + 6000 ≤ x.cfg.maxMem
  ops : 300 ≤ x.cfg.maxOps
  minimal : x.cfg.minimal = true → o.data.length ≠ 256 ∧ o.data.length ≠ 65536

/-- The unlocking script succeeds against the locking script exactly if `Q`. -/
def SpendsIff (ec : Curve) (hash160 : Bytes → Bytes) (H : Bytes → BitVec 256) (t : Tx) (k : Nat) (value : BitVec 64) (pub : Bytes)
    (o : Output) (unlock lock : Bytes) (Q : Prop) : Prop :=
  ∀ (x : Env) (d : Doc), x.doc = some d → Ordinary hash160 H pub o x → Answers ec H t k value d →
    ∀ n, 300 ≤ n → ∃ r, evaluate x n unlock lock = .done r ∧ (r.verified = true ↔ Q)

/-! ### C107 -/

/-- **C107** The puzzle that the two scripts make is the puzzle given out for the output, and the work is the same.  A contract is
worked on for the address that it names, whatever the key; a bounty for that of the key. -/
theorem C107_puzzle (hash160 : Bytes → Bytes) (H : Bytes → BitVec 256) (o : Output) (sig pub : Bytes) (x : Solution)
    (hv : o.valid = true) (hx : Shaped o x) (contract : o.kind = .contract → o.hash ≠ 0)
    (bounty : o.kind = .bounty → digest160 hash160 pub ≠ 0) :
    (BProof.of o (Input.ofSolution (digest160 hash160) sig pub x o.kind o.useBits)).work.puzzle =
        workPuzzle o (digest160 hash160 pub) ∧
      (BProof.of o (Input.ofSolution (digest160 hash160) sig pub x o.kind o.useBits)).valid H =
        Proof.valid H ⟨workPuzzle o (digest160 hash160 pub), x⟩ := by
  have hne : o.kind ≠ .invalid := by simpa [Output.valid] using hv
  obtain ⟨hx1, hx2, _⟩ := hx
  obtain ⟨k, hash, cat, ub, content, t, tag, un, data⟩ := o
  obtain ⟨ts, nonce, n2, bits, n1⟩ := x
  simp only at hx1 hx2 contract bounty hne
  generalize ha : digest160 hash160 pub = a at *
  have m0 : (boostMask == (-1 : BitVec 32) || boostMask == boostMask) = true := by decide
  have m1 : ((-1 : BitVec 32) == (-1 : BitVec 32) || (-1 : BitVec 32) == boostMask) = true := by decide
  cases k with
  | invalid => exact absurd rfl hne
  | bounty =>
    cases ub <;> cases bits <;>
      simp_all [BProof.of, Input.ofSolution, Input.bounty, workPuzzle, Output.valid, BProof.valid, Proof.valid, Proof.string,
        Proof.merkleRoot, Proof.meta, Solution.generalPurposeBits]
  | contract =>
    cases ub <;> cases bits <;>
      simp_all [BProof.of, Input.ofSolution, Input.contract, workPuzzle, Output.valid, BProof.valid, Proof.valid, Proof.string,
        Proof.merkleRoot, Proof.meta, Solution.generalPurposeBits]

/-- What the input script is made of. -/
theorem ofSolution_fields (hash160 : Bytes → Bytes) (o : Output) (sig pub : Bytes) (x : Solution)
    (hv : o.valid = true) (hx : Shaped o x) :
    let i := Input.ofSolution (digest160 hash160) sig pub x o.kind o.useBits
    i.kind = o.kind ∧ i.bits.isSome = o.useBits ∧ i.valid = true ∧ i.signature = sig ∧ i.pubkey = pub ∧
      i.extraNonce2.length ≤ 32 ∧ (o.kind = .bounty → i.hash = digest160 hash160 pub) := by
  have hne : o.kind ≠ .invalid := by simpa [Output.valid] using hv
  obtain ⟨hx1, hx2, hx3⟩ := hx
  obtain ⟨k, hash, cat, ub, content, t, tag, un, data⟩ := o
  obtain ⟨ts, nonce, n2, bits, n1⟩ := x
  simp only at hx1 hx2 hx3 hne
  have hx4 : n2.length ≤ 32 := by rcases hx3 with h | h <;> omega
  cases k with
  | invalid => exact absurd rfl hne
  | bounty => cases ub <;> cases bits <;> simp_all [Input.ofSolution, Input.bounty, Input.valid]
  | contract => cases ub <;> cases bits <;> simp_all [Input.ofSolution, Input.contract, Input.valid]

/-- One input. -/
theorem redeem_one (E : Ecdsa P) (hash160 : Bytes → Bytes) (hlen : ∀ b, (hash160 b).length = 20) (H : Bytes → BitVec 256)
    (p : BPuzzle) (o : Output) (rd : Ready E hash160 p o) (x : Solution) (hx : Shaped o x) (tx : ITx) (k : Nat) (value : BitVec 64) :
    ∃ sig ux, E.signDoc H p.key ⟨tx, BitVec.ofNat 32 k, value, o.program⟩ 0x41 = .ok sig ∧
      (Input.ofSolution (digest160 hash160) sig (E.pubkeyOf p.key) x o.kind o.useBits).write = .ok ux ∧
      ∀ t : Tx, ITx.ofTx t = tx → SpendsIff E.curve hash160 H t k value (E.pubkeyOf p.key) o ux p.candidate.script
        (3 ≤ o.target.exponent ∧ o.target.exponent ≤ 32 ∧
          Proof.valid H ⟨workPuzzle o (digest160 hash160 (E.pubkeyOf p.key)), x⟩ = true) := by
  obtain ⟨hv, ht, hd⟩ := rd.output
  have hcode : compile o.program = .ok p.candidate.script := rd.script
  obtain ⟨h, hh⟩ := sigHash_defined H ⟨tx, BitVec.ofNat 32 k, value, o.program⟩ 0x41 (.inl (by decide)) _ hcode
  have hsl := boost_signature_length E p.key.key h 0x41 rd.key
  have hpk := pubkeyOf_eq E p.key rd.key
  have hpl : (E.pubkeyOf p.key).length = 33 ∨ (E.pubkeyOf p.key).length = 65 := by
    rw [hpk, E.lib.enc_length]; cases p.key.compressed <;> simp
  obtain ⟨f1, f2, f3, f4, f5, f6, f7⟩ := ofSolution_fields hash160 o (E.sign p.key.key h ++ [0x41]) (E.pubkeyOf p.key) x hv hx
  have hpz := (C107_puzzle hash160 H o (E.sign p.key.key h ++ [0x41]) (E.pubkeyOf p.key) x hv hx
    (fun h => by rw [rd.named h]; exact rd.nonzero) (fun _ => rd.nonzero)).2
  generalize hi : Input.ofSolution (digest160 hash160) (E.sign p.key.key h ++ [0x41]) (E.pubkeyOf p.key) x o.kind o.useBits = i at *
  refine ⟨E.sign p.key.key h ++ [0x41], i.program.flatMap Instr.write, ?_, ?_, ?_⟩
  · unfold Ecdsa.signDoc; rw [hh]
  · rw [hi]
    exact i.write_eq (by rw [f4]; omega) (by rw [f5]; exact hpl) (by omega)
  · rintro t rfl y d hy ord ha n hn
    have hu := i.write_eq (by rw [f4]; omega) (by rw [f5]; exact hpl) (by omega)
    obtain ⟨r, q1, q2⟩ := C94_scripts_partial y d hy ord.wide o i hv f1 f2 f3 (by rw [f5]; exact hpl) (by rw [f4]; exact hsl)
      ord.room (by omega) ord.ops (by
        intro hm v hvm
        simp only [List.mem_cons, List.not_mem_nil, or_false] at hvm
        rcases hvm with rfl | rfl
        · omega
        · exact ord.minimal hm) n hn _ _ hu rd.script
    refine ⟨r, q1, q2.trans ?_⟩
    have hH : digestOf y = H := by
      funext b
      exact ord.hash256 b
    have hver := made_verifies E H p.key rd.key p.key.compressed y.cfg.flags 0x41 _ h hh (by rw [← hpk]; exact ord.flags)
    rw [← hpk] at hver
    have hcl : cleanupScriptCode o.program i.signature = o.program := by
      unfold cleanupScriptCode
      rw [f4, if_pos]
      simp only [hasForkId, List.getLastD_concat]
      decide
    unfold Redeems
    rw [hcl, hH, hpz, f4, f5, ha _ _ _ _ _ hver, ord.hash160]
    have hm : minerHash o i = digest160 hash160 (E.pubkeyOf p.key) := by
      unfold minerHash
      cases hk : o.kind with
      | invalid => simp [Output.valid, hk] at hv
      | bounty => simp [f7 hk]
      | contract => simp [rd.named hk]
    have hw : wfix 20 (minerHash o i) = hash160 (E.pubkeyOf p.key) := by
      rw [hm]; exact wfix_twenty (hlen _)
    constructor
    · rintro ⟨a1, a2, _, _, _, a3, _⟩
      exact ⟨a1, a2, a3⟩
    · rintro ⟨a1, a2, a3⟩
      exact ⟨a1, a2, f3, f1, f2, a3, hw, rfl⟩

theorem redeem_from (E : Ecdsa P) (hash160 : Bytes → Bytes) (hlen : ∀ b, (hash160 b).length = 20) (H : Bytes → BitVec 256)
    (p : BPuzzle) (o : Output) (rd : Ready E hash160 p o) (x : Solution) (hx : Shaped o x) (tx : ITx) (l : List Prevout) (k : Nat) :
    ∃ ins, redeemFrom E hash160 H p o o.program tx x k l = .ok ins ∧
      ins.map (fun i => (i.reference, i.sequence)) = l.map (fun u => (u.reference, (0xffffffff : BitVec 32))) ∧
      ∀ (j : Nat) (u : Prevout), l[j]? = some u → ∃ ux, ins[j]? = some ⟨u.reference, ux, 0xffffffff⟩ ∧
        ∀ t : Tx, ITx.ofTx t = tx → SpendsIff E.curve hash160 H t (k + j) u.value (E.pubkeyOf p.key) o ux p.candidate.script
          (3 ≤ o.target.exponent ∧ o.target.exponent ≤ 32 ∧
            Proof.valid H ⟨workPuzzle o (digest160 hash160 (E.pubkeyOf p.key)), x⟩ = true) := by
  induction l generalizing k with
  | nil => exact ⟨[], rfl, rfl, by simp⟩
  | cons u l ih =>
    obtain ⟨ins, e1, e2, e3⟩ := ih (k + 1)
    obtain ⟨sig, ux, q1, q2, q3⟩ := redeem_one E hash160 hlen H p o rd x hx tx k u.value
    refine ⟨⟨u.reference, ux, 0xffffffff⟩ :: ins, ?_, by simp [e2], ?_⟩
    · rw [redeemFrom, q1]
      simp only [bind, Except.bind]
      rw [q2]
      simp only
      rw [e1]
    · intro j v hj
      cases j with
      | zero =>
        simp only [List.getElem?_cons_zero, Option.some.injEq] at hj
        subst hj
        exact ⟨ux, rfl, q3⟩
      | succ j =>
        obtain ⟨uy, g1, g2⟩ := e3 j v (by simpa using hj)
        refine ⟨uy, by simpa using g1, ?_⟩
        rw [show k + (j + 1) = k + 1 + j by omega]
        exact g2

theorem sum_fits (l : List Prevout) (a : Int) (h0 : 0 ≤ a) (hl : ∀ u ∈ l, 0 ≤ u.value.toInt)
    (hs : a + (l.map fun u => u.value.toInt).sum < 2 ^ 63) :
    l.foldlM (fun a p => addSat a p.value.toInt) a = some (a + (l.map fun u => u.value.toInt).sum) := by
  have pos : ∀ l : List Prevout, (∀ u ∈ l, 0 ≤ u.value.toInt) → 0 ≤ (l.map fun u => u.value.toInt).sum := by
    intro l hl
    induction l with
    | nil => simp
    | cons u l ih =>
      have h1 := hl u (by simp)
      have h2 := ih fun v hv => hl v (by simp [hv])
      simp only [List.map_cons, List.sum_cons]
      omega
  induction l generalizing a with
  | nil => simp
  | cons u l ih =>
    have h1 := hl u (by simp)
    have h2 := pos l fun v hv => hl v (by simp [hv])
    simp only [List.map_cons, List.sum_cons] at hs ⊢
    have hf : addSat a u.value.toInt = some (a + u.value.toInt) := by
      unfold addSat
      rw [if_pos]
      simp only [fits64, Bool.and_eq_true, decide_eq_true_eq]
      omega
    rw [List.foldlM_cons, hf]
    simp only [bind, Option.bind]
    rw [ih (a + u.value.toInt) (by omega) (fun v hv => hl v (by simp [hv])) (by omega)]
    congr 1
    omega

/-- **C107**: redeem a puzzle with a solution, to some outputs.  The transaction has those outputs and spends the previous outputs
of the puzzle, in order.  Every input script succeeds against the Boost output script, with the completed transaction as
the document, exactly if the solution is a valid proof of work for the puzzle that was given out; and the exponent of the target is
from 3 to 32, which is not asked off the chain. -/
theorem C107_redeems_partial (E : Ecdsa P) (hash160 : Bytes → Bytes) (hlen : ∀ b, (hash160 b).length = 20) (H : Bytes → BitVec 256)
    (p : BPuzzle) (o : Output) (rd : Ready E hash160 p o) (x : Solution) (hx : Shaped o x) (outs : List Verif.Output) :
    ∃ (t : Tx) (w : Puzzle), p.redeem E hash160 H x outs = .ok t ∧ p.work E hash160 = some w ∧
      t.version = 1 ∧ t.outputs = outs ∧ t.lockTime = 0 ∧
      t.inputs.map (fun i => (i.reference, i.sequence)) =
        p.candidate.prevouts.map (fun u => (u.reference, (0xffffffff : BitVec 32))) ∧
      ∀ (k : Nat) (u : Prevout), p.candidate.prevouts[k]? = some u → ∃ i : Verif.Input, t.inputs[k]? = some i ∧
        SpendsIff E.curve hash160 H t k u.value (E.pubkeyOf p.key) o i.script p.candidate.script
          (3 ≤ o.target.exponent ∧ o.target.exponent ≤ 32 ∧ Proof.valid H ⟨w, x⟩ = true) := by
  obtain ⟨hv, ht, hd⟩ := rd.output
  have hread : Output.read p.candidate.script = some o := by
    obtain ⟨b, h1, h2⟩ := Output.round (o := o) (by simpa [Output.valid] using hv) ht (by omega) rd.bounty
    rw [rd.script] at h1; cases h1; exact h2
  have hval := sum_fits p.candidate.prevouts 0 (Int.le_refl 0) rd.amounts.1 (by rw [Int.zero_add]; exact rd.amounts.2)
  have hdec : decompile p.candidate.script = .ok o.program := by
    have h1 := rd.script
    rw [o.write_eq (by omega) (by omega)] at h1
    injection h1 with h1
    rw [← h1]
    exact program_decompile hv (by omega) (by omega)
  obtain ⟨ins, e1, e2, e3⟩ := redeem_from E hash160 hlen H p o rd x hx (p.incomplete outs) p.candidate.prevouts 0
  refine ⟨⟨1, ins, outs, 0⟩, workPuzzle o (digest160 hash160 (E.pubkeyOf p.key)), ?_, ?_, rfl, rfl, rfl, e2, ?_⟩
  · unfold BPuzzle.redeem Candidate.value
    rw [hread]
    simp only
    rw [hval]
    simp only
    rw [hdec]
    simp only
    rw [e1]
    rfl
  · unfold BPuzzle.work
    rw [hread]
    rfl
  · intro k u hk
    obtain ⟨ux, g1, g2⟩ := e3 k u hk
    refine ⟨_, g1, ?_⟩
    rw [Nat.zero_add] at g2
    apply g2
    unfold ITx.ofTx BPuzzle.incomplete
    simp only [ITx.mk.injEq, true_and, and_true]
    have := congrArg (List.map fun a : Outpoint × BitVec 32 => (⟨a.1, a.2⟩ : IInput)) e2
    simpa [List.map_map, Function.comp_def] using this

/-! ### C108 -/

theorem before_irrefl (a : Outpoint) : before a a = false := by simp [before]

theorem before_trans {a b c : Outpoint} (h1 : before a b = true) (h2 : before b c = true) : before a c = true := by
  unfold before at *
  simp only [BitVec.lt_def] at *
  by_cases h : a.digest = b.digest <;> by_cases h' : b.digest = c.digest
  · rw [if_pos h] at h1; rw [if_pos h'] at h2; rw [if_pos (h.trans h')]
    simp only [decide_eq_true_eq] at *; omega
  · rw [if_neg h'] at h2; rw [if_neg (by rw [h]; exact h'), h]; exact h2
  · rw [if_neg h] at h1; rw [if_neg (by rw [← h']; exact h), ← h']; exact h1
  · rw [if_neg h] at h1; rw [if_neg h'] at h2
    simp only [decide_eq_true_eq] at h1 h2
    have : a.digest ≠ c.digest := by intro e; rw [e] at h1; omega
    rw [if_neg this]
    simp only [decide_eq_true_eq]; omega

theorem before_total {a b : Outpoint} (h1 : before a b = false) (h2 : before b a = false) : a = b := by
  obtain ⟨d, i⟩ := a
  obtain ⟨d', i'⟩ := b
  unfold before at *
  simp only [BitVec.lt_def] at *
  by_cases h : d = d'
  · subst h
    simp only [if_true, decide_eq_false_iff_not] at h1 h2
    have : i = i' := BitVec.eq_of_toNat_eq (by omega)
    rw [this]
  · rw [if_neg h] at h1
    rw [if_neg (Ne.symm h)] at h2
    simp only [decide_eq_false_iff_not] at h1 h2
    exact absurd (BitVec.eq_of_toNat_eq (by omega)) h

/-- In order, so no reference occurs twice. -/
def Ordered (l : List Prevout) : Prop := l.Pairwise fun a b => before a.reference b.reference = true

theorem ordered_nodup {l : List Prevout} (h : Ordered l) : (l.map (·.reference)).Nodup := by
  unfold List.Nodup
  rw [List.pairwise_map]
  refine List.Pairwise.imp ?_ h
  intro a b hab e
  rw [e, before_irrefl] at hab
  cases hab

theorem insertPrevout_mem (p : Prevout) (l : List Prevout) :
    (∀ q ∈ insertPrevout p l, q = p ∨ q ∈ l) ∧ (∀ q ∈ l, q ∈ insertPrevout p l) := by
  induction l with
  | nil => simp [insertPrevout]
  | cons q l ih =>
    rw [insertPrevout]
    split
    · refine ⟨fun r hr => ?_, fun r hr => List.mem_cons_of_mem _ hr⟩
      simpa using hr
    · split
      · refine ⟨?_, ?_⟩
        · intro r hr
          simp only [List.mem_cons] at hr ⊢
          rcases hr with rfl | hr
          · exact .inr (.inl rfl)
          · rcases ih.1 r hr with h | h
            · exact .inl h
            · exact .inr (.inr h)
        · intro r hr
          simp only [List.mem_cons] at hr ⊢
          rcases hr with rfl | hr
          · exact .inl rfl
          · exact .inr (ih.2 r hr)
      · exact ⟨fun r hr => .inr hr, fun r hr => hr⟩

theorem insertPrevout_ordered (p : Prevout) (l : List Prevout) (h : Ordered l) : Ordered (insertPrevout p l) := by
  unfold Ordered at *
  induction l with
  | nil => simp [insertPrevout]
  | cons q l ih =>
    rw [List.pairwise_cons] at h
    rw [insertPrevout]
    split
    · rename_i hb
      refine List.pairwise_cons.2 ⟨?_, List.pairwise_cons.2 h⟩
      intro r hr
      simp only [List.mem_cons] at hr
      rcases hr with rfl | hr
      · exact hb
      · exact before_trans hb (h.1 r hr)
    · split
      · rename_i hb
        refine List.pairwise_cons.2 ⟨?_, ih h.2⟩
        intro r hr
        rcases (insertPrevout_mem p l).1 r hr with rfl | hr
        · exact hb
        · exact h.1 r hr
      · exact List.pairwise_cons.2 h

/-- A new reference is added. -/
theorem insertPrevout_perm (p : Prevout) (l : List Prevout) (h : p.reference ∉ l.map (·.reference)) :
    (insertPrevout p l).Perm (p :: l) := by
  induction l with
  | nil => exact .refl _
  | cons q l ih =>
    simp only [List.map_cons, List.mem_cons, not_or] at h
    rw [insertPrevout]
    split
    · exact .refl _
    · split
      · exact (List.Perm.cons q (ih h.2)).trans (List.Perm.swap p q l)
      · rename_i h1 h2
        exact absurd (before_total (by simpa using h1) (by simpa using h2)) h.1

/-- A reference already there changes nothing. -/
theorem insertPrevout_same (p : Prevout) (l : List Prevout) (ho : Ordered l) (h : p.reference ∈ l.map (·.reference)) :
    insertPrevout p l = l := by
  unfold Ordered at ho
  induction l with
  | nil => simp at h
  | cons q l ih =>
    rw [List.pairwise_cons] at ho
    simp only [List.map_cons, List.mem_cons] at h
    rw [insertPrevout]
    rcases h with h | h
    · rw [h, before_irrefl]; simp
    · obtain ⟨r, hr, e⟩ := List.mem_map.1 h
      have hb := ho.1 r hr
      rw [e] at hb
      have hn : before p.reference q.reference = false := by
        cases hc : before p.reference q.reference with
        | false => rfl
        | true =>
          have := before_trans hb hc
          rw [before_irrefl] at this
          cases this
      rw [hn, hb]
      simp [ih ho.2 h]

theorem insert_all (l : List (Outpoint × Verif.Output)) (s : List Prevout) (ho : Ordered s)
    (hn : (l.map (·.1)).Nodup) (hs : ∀ u ∈ l, u.1 ∉ s.map (·.reference)) :
    Ordered (l.foldl (fun s u => insertPrevout ⟨u.1, u.2.value⟩ s) s) ∧
      (l.foldl (fun s u => insertPrevout ⟨u.1, u.2.value⟩ s) s).Perm (s ++ l.map fun u => ⟨u.1, u.2.value⟩) := by
  induction l generalizing s with
  | nil => simpa using ho
  | cons u l ih =>
    simp only [List.map_cons, List.nodup_cons] at hn
    have hp := insertPrevout_perm ⟨u.1, u.2.value⟩ s (hs u (by simp))
    obtain ⟨h1, h2⟩ := ih (insertPrevout ⟨u.1, u.2.value⟩ s) (insertPrevout_ordered _ _ ho) hn.2 (by
      intro v hv hm
      have := (hp.map (·.reference)).mem_iff.1 hm
      simp only [List.map_cons, List.mem_cons] at this
      rcases this with h | h
      · exact hn.1 (List.mem_map.2 ⟨v, hv, h⟩)
      · exact hs v (by simp [hv]) h)
    refine ⟨h1, h2.trans ?_⟩
    refine (hp.append_right _).trans ?_
    simp only [List.map_cons, List.cons_append]
    exact List.perm_middle.symm

/-- **C108**: the candidate made from outputs with different references holds exactly those, in order of reference, and its
value is their sum.  Missing: that all have the script of the candidate, which is not checked (see `C108_false_script`). -/
theorem C108_made_partial (u : Outpoint × Verif.Output) (l : List (Outpoint × Verif.Output)) (hn : ((u :: l).map (·.1)).Nodup) :
    ∃ c, Candidate.of (u :: l) = some c ∧ c.script = u.2.script ∧ Ordered c.prevouts ∧
      c.prevouts.Perm ((u :: l).map fun v => ⟨v.1, v.2.value⟩) ∧
      ((∀ v ∈ u :: l, 0 ≤ v.2.value.toInt) → ((u :: l).map fun v => v.2.value.toInt).sum < 2 ^ 63 →
        c.value = some ((u :: l).map fun v => v.2.value.toInt).sum) := by
  obtain ⟨h1, h2⟩ := insert_all (u :: l) [] List.Pairwise.nil hn (by simp)
  rw [List.nil_append] at h2
  refine ⟨_, rfl, rfl, h1, h2, ?_⟩
  intro hp hs
  unfold Candidate.value
  simp only
  have e : ((u :: l).foldl (fun s u => insertPrevout ⟨u.1, u.2.value⟩ s) [] |>.map fun p : Prevout => p.value.toInt).sum =
      ((u :: l).map fun v => v.2.value.toInt).sum := by
    have := (h2.map fun p : Prevout => p.value.toInt).sum_eq
    rw [this, List.map_map]
    rfl
  rw [sum_fits _ 0 (Int.le_refl 0) ?_ (by rw [Int.zero_add, e]; exact hs), Int.zero_add, e]
  intro p hm
  obtain ⟨v, hv, rfl⟩ := List.mem_map.1 (h2.mem_iff.1 hm)
  exact hp v hv

/-- Adding an output: a new reference is added, one already there changes nothing, and the order is kept.  The first output
decides the script. -/
theorem C108_added (c : Candidate) (ho : Ordered c.prevouts) (u : Outpoint × Verif.Output) :
    Ordered (c.add u).prevouts ∧
      (u.1 ∈ c.prevouts.map (·.reference) → c.add u = c) ∧
      (u.1 ∉ c.prevouts.map (·.reference) → (c.add u).prevouts.Perm (⟨u.1, u.2.value⟩ :: c.prevouts)) ∧
      (c.add u).script = if c.prevouts = [] then u.2.script else c.script := by
  obtain ⟨script, prevouts⟩ := c
  simp only at ho
  have hany : prevouts.any (fun p => !before p.reference u.1 && !before u.1 p.reference) = true ↔
      u.1 ∈ prevouts.map (·.reference) := by
    rw [List.any_eq_true, List.mem_map]
    constructor
    · rintro ⟨p, hp, h⟩
      simp only [Bool.and_eq_true, Bool.not_eq_true'] at h
      exact ⟨p, hp, before_total h.1 h.2⟩
    · rintro ⟨p, hp, h⟩
      exact ⟨p, hp, by rw [h, before_irrefl]; rfl⟩
  cases prevouts with
  | nil => simp [Candidate.add, Ordered]
  | cons q l =>
    have hl : ¬ (q :: l).length = 0 := by simp
    unfold Candidate.add
    simp only
    rw [if_neg hl, if_neg (by simp : ¬ q :: l = [])]
    by_cases h : u.1 ∈ (q :: l).map (·.reference)
    · rw [if_pos (hany.2 h)]
      exact ⟨ho, fun _ => rfl, fun hc => absurd h hc, rfl⟩
    · rw [if_neg (fun hc => h (hany.1 hc))]
      exact ⟨insertPrevout_ordered _ _ ho, fun hc => absurd hc h, fun _ => insertPrevout_perm _ _ h, rfl⟩

/-- **C108** is false of scripts: outputs with other scripts are taken up as well, so their value is counted although the puzzle
is not theirs. -/
theorem C108_false_script : ∃ (l : List (Outpoint × Verif.Output)) (c : Candidate), Candidate.of l = some c ∧
    (∃ u ∈ l, u.2.script ≠ c.script ∧ ⟨u.1, u.2.value⟩ ∈ c.prevouts) ∧ c.value = some 3000 := by
  refine ⟨[(⟨1, 0⟩, ⟨1000, [0x51]⟩), (⟨0, 7⟩, ⟨2000, [0x52]⟩)], ⟨[0x51], [⟨⟨0, 7⟩, 2000⟩, ⟨⟨1, 0⟩, 1000⟩]⟩, by decide, ?_, by decide⟩
  exact ⟨(⟨0, 7⟩, ⟨2000, [0x52]⟩), by simp, by decide, by decide⟩

/-- **C108, false as stated** Two candidates are equal exactly if they have the same script, whatever outputs they hold and of whatever value; and there are
two that are equal and hold different outputs. -/
theorem C108_false_equal : (∀ a b : Candidate, a.equal b = true ↔ a.script = b.script) ∧
    ∃ a b : Candidate, a.equal b = true ∧ a.value = some 1000 ∧ b.value = some 3000 ∧ ∀ p ∈ a.prevouts, p ∉ b.prevouts := by
  refine ⟨fun a b => by simp [Candidate.equal], ⟨[0x51], [⟨⟨1, 0⟩, 1000⟩]⟩, ⟨[0x51], [⟨⟨2, 0⟩, 3000⟩]⟩, by decide, by decide, by decide, by decide⟩

/-! ### A case -/

def caseOut : Output := sampleOut 0x1d00ffff#32

def puzzleOf (o : Output) : BPuzzle :=
  ⟨⟨o.program.flatMap Instr.write, [⟨⟨0, 7⟩, 2000⟩, ⟨⟨1, 0⟩, 1000⟩]⟩, exampleKey⟩

def casePuzzle : BPuzzle := puzzleOf caseOut

theorem ready_of (target : BitVec 32) (hv : (sampleOut target).valid = true) : Ready exampleEcdsa exampleHash160 (puzzleOf (sampleOut target)) (sampleOut target) where
  output := ⟨hv, by simp [sampleOut], by simp [sampleOut]⟩
  script := Output.write_eq _ (by simp [sampleOut]) (by simp [sampleOut])
  bounty _ := rfl
  key := show secretOk exampleKey.key = true by decide
  named h := by cases h
  nonzero := by
    have hk : exampleEcdsa.pubkeyOf (puzzleOf (sampleOut target)).key = exampleLib.enc true (pointOf exampleEcdsa exampleKey) :=
      pubkeyOf_eq exampleEcdsa exampleKey (by decide)
    rw [hk]
    obtain ⟨b, hb⟩ : ∃ b, exampleHash160 (exampleLib.enc true (pointOf exampleEcdsa exampleKey)) = 2 :: b := ⟨_, rfl⟩
    have hl := exampleHash160_length (exampleLib.enc true (pointOf exampleEcdsa exampleKey))
    unfold digest160
    intro h0
    have h1 := wfix_twenty hl
    rw [h0, hb] at h1
    have h2 := congrArg List.head? h1
    rw [List.head?_cons] at h2
    exact absurd h2 (by decide)
  amounts := ⟨by simp [puzzleOf], by simp [puzzleOf]⟩

/-- The hypotheses are met by a bounty with two outputs. -/
theorem case_ready : Ready exampleEcdsa exampleHash160 casePuzzle caseOut := ready_of _ (by decide)

/-- **C107** is false of a target with an exponent of 33: a valid proof for the puzzle that was given out redeems none of the outputs. -/
theorem C107_false_target : ∃ (H : Bytes → BitVec 256) (p : BPuzzle) (o : Output) (x : Solution) (t : Tx) (w : Puzzle),
    Ready exampleEcdsa exampleHash160 p o ∧ Shaped o x ∧ p.redeem exampleEcdsa exampleHash160 H x [] = .ok t ∧ p.work exampleEcdsa exampleHash160 = some w ∧
    Proof.valid H ⟨w, x⟩ = true ∧ p.candidate.prevouts.length = 2 ∧
    ∀ (k : Nat) (u : Prevout), p.candidate.prevouts[k]? = some u → ∃ i : Verif.Input, t.inputs[k]? = some i ∧
      SpendsIff exampleEcdsa.curve exampleHash160 H t k u.value (exampleEcdsa.pubkeyOf p.key) o i.script p.candidate.script False := by
  have rd := ready_of 0x2100ffff#32 (by decide)
  obtain ⟨t, w, h1, h2, _, _, _, _, h3⟩ := C107_redeems_partial exampleEcdsa exampleHash160 exampleHash160_length (fun _ => 0) _ _ rd
    ⟨1, 2, [1, 2, 3], some 0x2000, 4⟩ ⟨by decide, by decide, by decide⟩ []
  refine ⟨fun _ => 0, _, _, ⟨1, 2, [1, 2, 3], some 0x2000, 4⟩, t, w, rd, ⟨by decide, by decide, by decide⟩, h1, h2, ?_, rfl, fun k u hu => ?_⟩
  · have hread : Output.read (puzzleOf (sampleOut 0x2100ffff#32)).candidate.script = some (sampleOut 0x2100ffff#32) := by
      obtain ⟨b, r1, r2⟩ := Output.round (o := sampleOut 0x2100ffff#32) (by decide) (by decide) (by decide) rd.bounty
      rw [rd.script] at r1; cases r1; exact r2
    unfold BPuzzle.work at h2
    rw [hread, Option.map_some, Option.some.injEq] at h2
    have hn := rd.nonzero
    unfold digest160 at hn
    have hw : w.target = 0x2100ffff#32 := by
      rw [← h2, workPuzzle, if_neg (by simpa [sampleOut, Output.valid] using hn)]
      rfl
    unfold Proof.valid WorkString.valid
    rw [show (Proof.string (fun _ => 0) ⟨w, ⟨1, 2, [1, 2, 3], some 0x2000, 4⟩⟩).target = w.target from rfl, hw]
    exact decide_eq_true (show 0 < expand 0x2100ffff#32 by decide +kernel)
  · obtain ⟨i, hi, h4⟩ := h3 k u hu
    refine ⟨i, hi, fun x d a b c n hn => ?_⟩
    obtain ⟨r, h5, h6⟩ := h4 x d a b c n hn
    exact ⟨r, h5, fun h => absurd (h6.mp h).2.1 (by decide), fun h => h.elim⟩

example : Shaped caseOut ⟨1, 2, [1, 2, 3], some 0x2000, 4⟩ := ⟨by decide, by decide, by decide⟩

/-- An environment of the kind considered. -/
example (pub : Bytes) (h : pub.length = 33) : Ordinary (fun _ => List.replicate 20 0) (fun _ => 0) pub caseOut
    ⟨⟨genesisFlags, 500, 20, 100000, 750000⟩,
      fun h _ => match h with | .hash256 => List.replicate 32 0 | _ => List.replicate 20 0, some sampleDoc⟩ where
  wide := ⟨by decide, by decide, fun _ => rfl, fun _ => rfl⟩
  hash160 := rfl
  hash256 _ := (show fromLE 256 (List.replicate 32 0) = 0 by decide)
  flags := ⟨fun _ => by unfold On; decide, fun _ => by decide, ⟨1, by decide, true, false, by decide⟩, fun _ => h⟩
  room := by decide
  ops := by decide
  minimal := by decide

example : (([(⟨1, 0⟩, ⟨1000, [0x51]⟩), (⟨0, 7⟩, ⟨2000, [0x51]⟩)] : List (Outpoint × Verif.Output)).map (·.1)).Nodup := by decide

end Verif.Boost
