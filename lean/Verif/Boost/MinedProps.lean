import Verif.Boost.RedeemProps
import Verif.Work.Props
import Verif.Pay.ReceivedProps

/-
C159: what is mined for a Boost puzzle redeems its outputs.
-/

namespace Verif.Boost

open Verif Verif.Chain Verif.Script Verif.Sig Verif.Keys Verif.Text Verif.Work Verif.SPV Verif.Pay

open SPV.Spec

variable {P : Type} [AddCommGroup P]

/-! ### Specification -/

/-- The unlocking script succeeds against the locking script. -/
def Unlocks (ec : Curve) (hash160 : Bytes → Bytes) (H : Bytes → BitVec 256) (t : Tx) (k : Nat) (value : BitVec 64) (pub : Bytes)
    (o : Output) (unlock lock : Bytes) : Prop :=
  ∀ (x : Env) (d : Doc), x.doc = some d → Ordinary hash160 H pub o x → Pay.Answers ec H t k value d →
    ∀ n, 300 ≤ n → ∃ r, evaluate x n unlock lock = .done r ∧ r.verified = true

/-- A target that can be met on the chain. -/
structure Minable (o : Output) : Prop where
  low : 3 ≤ o.target.exponent
  high : o.target.exponent ≤ 32
  some : expand o.target ≠ 0

/-- The database has the outputs of the puzzle, in transactions to which the rules before genesis do not apply. -/
def Placed (R : Rules) (db : SPV.Digest → Found) (p : BPuzzle) : Prop :=
  ∀ u ∈ p.candidate.prevouts, (∃ t, (db u.reference.digest).transaction = some t ∧
    t.outputs[u.reference.index.toNat]? = some ⟨u.value, p.candidate.script⟩) ∧
    ¬ EraOf R (blockOf db u.reference.digest) true

/-- Hash functions of the interpreter, of which the double SHA256 is the one of the work. -/
structure Hashes (H : Bytes → BitVec 256) (hashes : HashOp → Bytes → Bytes) : Prop where
  short : ∀ b, (hashes .hash160 b).length = 20
  long : ∀ b, (hashes .hash256 b).length = 32
  same : ∀ b, fromLE 256 (hashes .hash256 b) = H b

/-! ### C159 -/

theorem work_target {E : Ecdsa P} {hash160 : Bytes → Bytes} {p : BPuzzle} {o : Output} (rd : Ready E hash160 p o) {w : Puzzle}
    (hw : p.work E hash160 = some w) : w.target = o.target := by
  have hread : Output.read p.candidate.script = some o := by
    obtain ⟨b, h1, h2⟩ := Output.round (o := o) (by simpa [Output.valid] using rd.output.1) rd.output.2.1 (by have := rd.output.2.2; omega)
      rd.bounty
    rw [rd.script] at h1; cases h1; exact h2
  unfold BPuzzle.work at hw
  rw [hread, Option.map_some, Option.some.injEq] at hw
  rw [← hw]
  have hne : (if o.kind = .contract then o.hash else fromLE 160 (hash160 (E.pubkeyOf p.key))) ≠ 0 := by
    split
    · rename_i hc
      rw [rd.named hc]
      exact rd.nonzero
    · exact rd.nonzero
  unfold workPuzzle
  simp only
  rw [if_neg (by rw [rd.output.1]; simpa using hne)]

/-- **C159**: whatever the miner finds for the puzzle, started from a solution of the form the output asks for, redeems every output
of the puzzle. -/
theorem C159_mined_partial (E : Ecdsa P) (hash160 : Bytes → Bytes) (hlen : ∀ b, (hash160 b).length = 20) (H : Bytes → BitVec 256)
    (p : BPuzzle) (o : Output) (rd : Ready E hash160 p o) (hm : Minable o) (start : Solution) (hx : Shaped o start) (w : Puzzle)
    (hw : p.work E hash160 = some w) (fuel : Nat) (pr : Proof) (hs : cpuSolve H fuel w start = some (.found pr))
    (outs : List Verif.Output) :
    ∃ t, p.redeem E hash160 H pr.solution outs = .ok t ∧ t.version = 1 ∧ t.outputs = outs ∧
      t.inputs.map (·.reference) = p.candidate.prevouts.map (·.reference) ∧
      ∀ (k : Nat) (u : Prevout), p.candidate.prevouts[k]? = some u → ∃ i : Verif.Input, t.inputs[k]? = some i ∧
        Unlocks E.curve hash160 H t k u.value (E.pubkeyOf p.key) o i.script p.candidate.script := by
  have htarget := work_target rd hw
  obtain ⟨h1, h2, h3, h4, h5, h6, h7⟩ := C47_valid_partial H fuel w start pr (by rw [htarget]; exact hm.some) hs
  have hshape : Shaped o pr.solution := ⟨by rw [h3]; exact hx.time, by rw [h4]; exact hx.bits, by rw [h6]; exact hx.nonce⟩
  obtain ⟨t, w', g1, g2, g3, g4, g5, g6, g7⟩ := C107_redeems_partial E hash160 hlen H p o rd pr.solution hshape outs
  rw [hw, Option.some.injEq] at g2
  subst g2
  refine ⟨t, g1, g3, g4, ?_, ?_⟩
  · have := congrArg (List.map Prod.fst) g6
    simpa [List.map_map, Function.comp_def] using this
  · intro k u hk
    obtain ⟨i, i1, i2⟩ := g7 k u hk
    refine ⟨i, i1, fun x d hd ho ha n hn => ?_⟩
    obtain ⟨r, r1, r2⟩ := i2 x d hd ho ha n hn
    refine ⟨r, r1, r2.2 ⟨hm.low, hm.high, ?_⟩⟩
    obtain ⟨q, sol⟩ := pr
    simp only at h2
    subst h2
    unfold Proof.valid WorkString.valid
    rw [decide_eq_true_eq]
    exact h1

/-- **C159** is false of other targets: what the miner finds for a target with an exponent below 3 or above 32 redeems nothing,
although it is found. -/
theorem C159_false_target (E : Ecdsa P) (hash160 : Bytes → Bytes) (hlen : ∀ b, (hash160 b).length = 20) (H : Bytes → BitVec 256)
    (p : BPuzzle) (o : Output) (rd : Ready E hash160 p o) (hm : o.target.exponent < 3 ∨ 32 < o.target.exponent)
    (hz : expand o.target ≠ 0) (start : Solution) (hx : Shaped o start) (w : Puzzle) (hw : p.work E hash160 = some w) (fuel : Nat)
    (pr : Proof) (hs : cpuSolve H fuel w start = some (.found pr)) (outs : List Verif.Output) :
    Proof.valid H pr = true ∧ ∃ t, p.redeem E hash160 H pr.solution outs = .ok t ∧
      ∀ (k : Nat) (u : Prevout), p.candidate.prevouts[k]? = some u → ∃ i : Verif.Input, t.inputs[k]? = some i ∧
        ∀ (x : Env) (d : Doc), x.doc = some d → Ordinary hash160 H (E.pubkeyOf p.key) o x → Pay.Answers E.curve H t k u.value d →
          ∀ n, 300 ≤ n → ∃ r, evaluate x n i.script p.candidate.script = .done r ∧ r.verified = false := by
  obtain ⟨h1, h2, h3, h4, h5, h6, h7⟩ := C47_valid_partial H fuel w start pr (by rw [work_target rd hw]; exact hz) hs
  have hshape : Shaped o pr.solution := ⟨by rw [h3]; exact hx.time, by rw [h4]; exact hx.bits, by rw [h6]; exact hx.nonce⟩
  obtain ⟨t, w', g1, g2, g3, g4, g5, g6, g7⟩ := C107_redeems_partial E hash160 hlen H p o rd pr.solution hshape outs
  refine ⟨?_, t, g1, ?_⟩
  · obtain ⟨q, sol⟩ := pr
    simp only at h2
    subst h2
    unfold Proof.valid WorkString.valid
    rw [decide_eq_true_eq]
    exact h1
  · intro k u hk
    obtain ⟨i, i1, i2⟩ := g7 k u hk
    refine ⟨i, i1, fun x d hd ho ha n hn => ?_⟩
    obtain ⟨r, r1, r2⟩ := i2 x d hd ho ha n hn
    refine ⟨r, r1, ?_⟩
    rw [Bool.eq_false_iff]
    intro hv
    obtain ⟨q1, q2, -⟩ := r2.1 hv
    omega

theorem unlocks_accepted {R : Rules} {ec : Curve} {hashes : HashOp → Bytes → Bytes} (henv : R.env = standardEnv ec R.H hashes)
    (hh : Hashes R.H hashes) (hr : 300 ≤ R.rounds) {o : Output} (hl : o.tag.length ≤ 20 ∧ o.data.length < 2 ^ 26)
    (hd : o.data.length ≠ 256 ∧ o.data.length ≠ 65536) {t : Tx} {k : Nat} {value : BitVec 64} {pub unlock lock : Bytes}
    (h : Unlocks ec (hashes .hash160) R.H t k value pub o unlock lock) : R.script false t k value unlock lock = .ok true := by
  obtain ⟨r, h1, h2⟩ := h (standardEnv ec R.H hashes false t k value) (redemptionDoc ec R.H t k value) rfl
    { wide := ⟨show (Config.ofFlags genesisFlags false).cfg.genesisStack = true by decide,
        show 33 ≤ (Config.ofFlags genesisFlags false).cfg.maxNumLen by decide, hh.long, hh.short⟩
      hash160 := rfl
      hash256 := hh.same
      flags := Forked.permitted ⟨1, by decide, false, by decide⟩ false pub
      room := by
        show _ ≤ (Config.ofFlags genesisFlags false).cfg.maxMem
        have : (Config.ofFlags genesisFlags false).cfg.maxMem = 2 ^ 63 - 1 := by decide
        omega
      ops := by
        show 300 ≤ (Config.ofFlags genesisFlags false).cfg.maxOps
        decide
      minimal := fun _ => hd }
    (by
      intro f sig pub code r hv
      show (match verifySignature ec R.H f sig pub ⟨ITx.ofTx t, BitVec.ofNat 32 k, value, code⟩ with
        | .ok r => r
        | .error _ => Result.ofError .unknownError) = r
      rw [hv]) R.rounds hr
  unfold Rules.script
  rw [henv, h1]
  simp [h2]

/-- **C159**: the transaction made of what the miner finds can be proved from a database that has the outputs, and the proof
is accepted by anyone who knows the headers that the database has. -/
theorem C159_accepted_partial (E : Ecdsa P) (hashes : HashOp → Bytes → Bytes) (R : Rules) (hh : Hashes R.H hashes)
    (henv : R.env = standardEnv E.curve R.H hashes) (hr : 300 ≤ R.rounds) {db : SPV.Digest → Found} (hdb : Truthful R db)
    (hall : ∀ d t, (db d).transaction = some t → (db d).confirmed = false → Acceptable R db t) (rank : SPV.Digest → Nat)
    (hrank : Ranked db rank) (p : BPuzzle) (o : Output) (rd : Ready E (hashes .hash160) p o)
    (hd : o.data.length ≠ 256 ∧ o.data.length ≠ 65536) (hp : Placed R db p) (depth : Nat)
    (hdepth : ∀ u ∈ p.candidate.prevouts, rank u.reference.digest < depth) (hm : Minable o) (start : Solution)
    (hx : Shaped o start) (w : Puzzle) (hw : p.work E (hashes .hash160) = some w) (fuel : Nat) (pr : Proof)
    (hs : cpuSolve R.H fuel w start = some (.found pr)) (outs : List Verif.Output) (sent spent : Int)
    (hspent : Pay.total (p.candidate.prevouts.map fun u => u.value.toInt) = some spent)
    (hsent : Pay.total (outs.map fun o => o.value.toInt) = some sent) (hfund : sent ≤ spent) :
    ∃ t, p.redeem E (hashes .hash160) R.H pr.solution outs = .ok t ∧ t.version = 1 ∧ t.outputs = outs ∧ ((db (txId R.H t)).confirmed = false →
      ∃ m, generateProof R.H db depth [t] = .ok (some ([t], m)) ∧ validate R [t] m = .ok true) := by
  obtain ⟨t, h1, h0, h2, h3, h4⟩ := C159_mined_partial E (hashes .hash160) hh.short R.H p o rd hm start hx w hw fuel pr hs outs
  have hl : t.inputs.length = p.candidate.prevouts.length := by simpa using congrArg List.length h3
  have hacc : Acceptable R db t := by
    refine ⟨p.candidate.prevouts.map fun u => ⟨u.value, p.candidate.script⟩, sent, spent, by simp [hl], ?_,
      by rw [List.map_map]; exact hspent, by rw [h2]; exact hsent, hfund⟩
    intro k i y hi hy
    rw [List.getElem?_map, Option.map_eq_some_iff] at hy
    obtain ⟨u, hk, rfl⟩ := hy
    obtain ⟨i', g1, g2⟩ := h4 k u hk
    rw [g1] at hi
    cases hi
    have href : i.reference = u.reference := by
      have := congrArg (·[k]?) h3
      simpa [g1, hk] using this
    rw [href]
    obtain ⟨q1, q2⟩ := hp u (List.mem_of_getElem? hk)
    refine ⟨q1, fun pre he => ?_⟩
    cases pre with
    | true => exact absurd he q2
    | false => exact unlocks_accepted henv hh hr rd.output.2 hd g2
  refine ⟨t, h1, h0, h2, acceptable_proved hdb hall hrank hacc ?_⟩
  intro i hi
  have : i.reference ∈ p.candidate.prevouts.map (·.reference) := by
    rw [← h3]
    exact List.mem_map_of_mem hi
  obtain ⟨u, hu, he⟩ := List.mem_map.1 this
  rw [← he]
  exact hdepth u hu

/-! ### A case -/

/-- The first byte. -/
def minedHash (b : Bytes) : BitVec 256 := fromLE 256 (b.headD 0 :: List.replicate 31 0)

def minedHashes : HashOp → Bytes → Bytes
  | .hash256 => fun b => b.headD 0 :: List.replicate 31 0
  | _ => exampleHash160

/-- A transaction with one Boost output, and its block. -/
def minedCoin : Tx := ⟨2, [], [⟨2000, casePuzzle.candidate.script⟩], 0⟩

def minedBlock : Confirmation := ⟨⟨0, []⟩, 1, exampleHeader 2 1⟩

def minedDb (d : BitVec 256) : Found := if d = 2 then ⟨some minedCoin, some minedBlock⟩ else ⟨none, none⟩

def minedRules : Rules where
  H := minedHash
  known := fun d => d == 2
  genesis := .at 0
  unset := .at 0
  env := standardEnv exampleEcdsa.curve minedHash minedHashes
  rounds := 300

def minedPuzzle : BPuzzle := ⟨⟨casePuzzle.candidate.script, [⟨⟨2, 0⟩, 2000⟩]⟩, exampleKey⟩

/-- What is mined for the output redeems it, and this is accepted. -/
example : ∃ w pr t m, minedPuzzle.work exampleEcdsa exampleHash160 = some w ∧
    cpuSolve minedHash 1 w ⟨1, 2, [1, 2, 3, 4, 5, 6, 7, 8], none, 4⟩ = some (.found pr) ∧
    minedPuzzle.redeem exampleEcdsa exampleHash160 minedHash pr.solution [⟨1900, [0x51]⟩] = .ok t ∧
    validate minedRules [t] m = .ok true := by
  have rd : Ready exampleEcdsa (minedHashes .hash160) minedPuzzle caseOut :=
    ⟨case_ready.output, case_ready.script, case_ready.bounty, case_ready.key, case_ready.named, case_ready.nonzero, by decide⟩
  have hh : Hashes minedRules.H minedHashes := ⟨exampleHash160_length, fun b => by simp [minedHashes], fun b => rfl⟩
  have hcf : (minedDb 2).confirmed = true := by decide +kernel
  have hdb : ∀ {d t}, (minedDb d).transaction = some t → d = 2 ∧ t = minedCoin := by
    intro d t h
    unfold minedDb at h
    split at h
    · rename_i hd
      exact ⟨hd, by simpa using h.symm⟩
    · simp at h
  have hno : ∀ {d t}, (minedDb d).transaction = some t → (minedDb d).confirmed = false → False := by
    intro d t h1 h2
    obtain ⟨rfl, -⟩ := hdb h1
    rw [hcf] at h2
    cases h2
  have hw : ∃ w, minedPuzzle.work exampleEcdsa (minedHashes .hash160) = some w := by
    obtain ⟨t, w, -, h, -⟩ := C107_redeems_partial exampleEcdsa (minedHashes .hash160) hh.short minedHash minedPuzzle caseOut rd
      ⟨1, 2, [1, 2, 3, 4, 5, 6, 7, 8], none, 4⟩ ⟨by decide, by decide, by decide⟩ []
    exact ⟨w, h⟩
  obtain ⟨w, hw⟩ := hw
  have hs : cpuSolve minedHash 1 w ⟨1, 2, [1, 2, 3, 4, 5, 6, 7, 8], none, 4⟩ =
      some (.found ⟨w, ⟨1, 2, [1, 2, 3, 4, 5, 6, 7, 8], none, 4⟩⟩) := by
    have ht : expand w.target = expand caseOut.target := by rw [work_target rd hw]
    have h0 : 256 < expand caseOut.target := by decide
    have hb : ∀ b, (minedHash b).toNat < 256 := fun b =>
      forall_byte (fun x => (fromLE 256 (x :: List.replicate 31 0)).toNat < 256) (by decide +kernel) (b.headD 0)
    have hv : Proof.valid minedHash ⟨w, ⟨1, 2, [1, 2, 3, 4, 5, 6, 7, 8], none, 4⟩⟩ = true := by
      unfold Proof.valid WorkString.valid
      rw [decide_eq_true_eq]
      show (minedHash _).toNat < expand w.target
      exact Nat.lt_trans (hb _) (by omega)
    unfold cpuSolve
    rw [if_neg (by omega), solveLoop, if_pos hv]
  obtain ⟨t, h1, h2, h3, h4⟩ := C159_accepted_partial exampleEcdsa minedHashes minedRules hh rfl (by decide) (db := minedDb)
    (by
      intro d t c g1 g2 g3
      obtain ⟨rfl, rfl⟩ := hdb g1
      have : c = minedBlock := by
        unfold minedDb at g2
        rw [if_pos rfl] at g2
        simpa using g2.symm
      subst this
      exact ⟨by decide +kernel, by decide +kernel⟩)
    (fun d t g1 g2 => (hno g1 g2).elim) (fun _ => 0) (fun d t g1 g2 => (hno g1 g2).elim) minedPuzzle caseOut rd (by decide)
    (by
      intro u hu
      simp only [minedPuzzle, List.mem_singleton] at hu
      subst hu
      exact ⟨⟨minedCoin, by decide +kernel, rfl⟩, by
        have : blockOf minedDb 2 = some (exampleHeader 2 1) := by decide +kernel
        simp only [this]
        exact fun h => absurd (show true = false from h) (by decide)⟩)
    1 (fun _ _ => by decide) ⟨by decide, by decide, by decide⟩ _ ⟨by decide, by decide, by decide⟩ w hw 1 _ hs [⟨1900, [0x51]⟩] 1900 2000
    (by decide) (by decide) (by decide)
  obtain ⟨m, -, h5⟩ := h4 (by
    have : txId minedHash t = 1 := by
      unfold txId Tx.write
      rw [h2]
      exact (show fromLE 256 ((1 : UInt8) :: List.replicate 31 0) = 1 by decide +kernel)
    show (minedDb (txId minedHash t)).confirmed = false
    rw [this]
    decide)
  exact ⟨w, _, t, m, hw, hs, h1, h5⟩

def wideOut : Output := sampleOut 0x2100ffff#32

/-- For a target with the exponent 33 something is found as well. -/
example : Ready exampleEcdsa exampleHash160 ⟨⟨wideOut.program.flatMap Instr.write, [⟨⟨2, 0⟩, 2000⟩]⟩, exampleKey⟩ wideOut ∧
    32 < wideOut.target.exponent ∧ expand wideOut.target ≠ 0 ∧
    ∀ w : Puzzle, w.target = wideOut.target → ∀ s, cpuSolve (fun _ => 0) 1 w s = some (.found ⟨w, s⟩) := by
  refine ⟨⟨by decide, Output.write_eq _ (by decide) (by decide), fun _ => rfl, by decide, fun h => absurd h (by decide),
    case_ready.nonzero, by decide⟩, by decide, by decide, ?_⟩
  intro w hw s
  have h0 : 0 < expand w.target := by rw [hw]; decide
  have hv : Proof.valid (fun _ => 0) ⟨w, s⟩ = true := by
    unfold Proof.valid WorkString.valid
    rw [decide_eq_true_eq]
    exact h0
  unfold cpuSolve
  rw [if_neg (by omega), solveLoop, if_pos hv]

end Verif.Boost
