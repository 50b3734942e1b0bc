import Verif.Stratum.Job
import Verif.Stratum.SessionProps
import Verif.Work.Props

/-
Property C114: the block header that a share of a Stratum session stands for, and when the share is accepted.
-/

namespace Verif.Stratum

open Verif.Net Verif.Text Verif.Work

namespace Spec

/-- The coinbase transaction: the two parts of the notification with the pool's number, greatest byte first, and the miner's
between them. -/
def coinbase (n1 : BitVec 32) (n : Notify) (s : Share) : Bytes :=
  n.generation1 ++ (wfix 4 n1).reverse ++ s.extraNonce2 ++ n.generation2

/-- The header with the version given: the Merkle root is found by hashing the coinbase transaction, which is the first of the
block, with one digest after the other to its right. -/
def shareHeader (H : Bytes → BitVec 256) (n1 : BitVec 32) (n : Notify) (s : Share) (version : BitVec 32) : Header where
  version := version
  previous := n.digest
  merkleRoot := n.path.foldl (fun d x => H (wfix 32 d ++ wfix 32 x)) (H (coinbase n1 n s))
  timestamp := s.timestamp
  target := n.target
  nonce := s.nonce

/-- `r` has the bits of `b` where `free` is one and those of `v` elsewhere. -/
def Rolled (free v b r : BitVec 32) : Prop :=
  ∀ i, i < 32 → r.getLsbD i = if free.getLsbD i then b.getLsbD i else v.getLsbD i

/-- The version of a header as the library puts it together: that of the notification if the worker has no mask; if it has one,
the bits that are one in the mask are the notification's and the others the share's. -/
def ShareVersion (mask : Option (BitVec 32)) (n : Notify) (s : Share) (r : BitVec 32) : Prop :=
  match mask with
  | none => r = n.version
  | some m => Rolled (~~~ m) n.version (s.bits.getD 0) r

end Spec

theorem rootFrom_zero (H : BitVec 256 → BitVec 256 → BitVec 256) (l : List (BitVec 256)) (d : BitVec 256) :
    Merkle.rootFrom H 0 d (l.map some) = l.foldl H d := by
  induction l generalizing d with
  | nil => rfl
  | cons x l ih =>
    simp only [List.map_cons, Merkle.rootFrom, Nat.zero_div, Nat.zero_mod, Option.getD_some, List.foldl_cons]
    rw [if_neg (by decide), ih]

theorem and_ones (c : BitVec 32) : c &&& (-1 : BitVec 32) = c := by
  apply BitVec.eq_of_getLsbD_eq
  intro i hi
  have : ∀ j < 32, (-1 : BitVec 32).getLsbD j = true := by decide
  rw [BitVec.getLsbD_and, this i hi, Bool.and_true]

theorem rolled_unique {free v b r r' : BitVec 32} (h : Spec.Rolled free v b r) (h' : Spec.Rolled free v b r') : r = r' := by
  apply BitVec.eq_of_getLsbD_eq
  intro i hi
  rw [h i hi, h' i hi]

theorem shareVersion_unique {mask : Option (BitVec 32)} {n : Notify} {s : Share} {r r' : BitVec 32}
    (h : Spec.ShareVersion mask n s r) (h' : Spec.ShareVersion mask n s r') : r = r' := by
  cases mask with
  | none => exact h.trans h'.symm
  | some m => exact rolled_unique h h'

/-- The work string of a puzzle made from a notification. -/
theorem string_of (H : Bytes → BitVec 256) (mask : Option (BitVec 32)) (n : Notify) (s : Share) (n1 : BitVec 32) :
    ∃ v, Proof.string H ⟨⟨n.version, n.digest, n.target, n.merklePath, n.generation1, n.generation2, mask.getD (-1)⟩,
      s.solution n1⟩ = Spec.shareHeader H n1 n s v ∧ Spec.ShareVersion mask n s v := by
  refine ⟨(n.version &&& mask.getD (-1)) ||| (s.solution n1).generalPurposeBits (~~~ mask.getD (-1)), ?_, ?_⟩
  · unfold Proof.string Spec.shareHeader
    congr 1
    exact rootFrom_zero _ _ _
  · cases mask with
    | none =>
      show (n.version &&& (-1)) ||| _ = n.version
      rw [and_ones]
      unfold Solution.generalPurposeBits Share.solution
      have : ~~~ (-1 : BitVec 32) = 0 := by decide
      cases s.bits with
      | none => simp
      | some b => simp only [Option.getD_none, this]; simp
    | some m =>
      intro i hi
      have h := C48_version H ⟨⟨n.version, n.digest, n.target, n.merklePath, n.generation1, n.generation2, m⟩,
        s.solution n1⟩ i hi
      rw [show (n.version &&& (some m).getD (-1)) ||| (s.solution n1).generalPurposeBits (~~~ (some m).getD (-1)) =
        (Proof.string H ⟨⟨n.version, n.digest, n.target, n.merklePath, n.generation1, n.generation2, m⟩,
          s.solution n1⟩).version from rfl, h]
      simp only [BitVec.getLsbD_not, hi, decide_true, Bool.true_and, Share.solution]
      cases m.getLsbD i <;> simp

/-- **C114** The header that a share stands for: time and nonce are the share's, the previous digest and the target are the
notification's, the Merkle root is that of the coinbase transaction with both extra nonces, and so is the version but for the
bits that are zero in the worker's mask. -/
theorem C114_header (H : Bytes → BitVec 256) (p : ShareProof) :
    ∃ v, p.work.string H = Spec.shareHeader H p.worker.extranonce.extraNonce1 p.notify p.share v ∧
      Spec.ShareVersion p.worker.mask p.notify p.share v := by
  obtain ⟨w, n, s⟩ := p
  obtain ⟨v, h1, h2⟩ := string_of H w.mask n s w.extranonce.extraNonce1
  refine ⟨v, ?_, h2⟩
  rw [← h1]
  unfold ShareProof.work
  cases w.mask <;> rfl

/-- **C114** The other way to it, by way of a job, gives the same if the job is valid. -/
theorem C114_same (V : Validity) (j : Job) (s : Share) (h : j.valid V = true) :
    (SolvedJob.mk j s).proof V = (ShareProof.mk j.worker j.notify s).work := by
  unfold SolvedJob.proof Job.work ShareProof.work
  simp only [h, Bool.not_true, Bool.false_eq_true, if_false]
  cases j.worker.mask <;> rfl

/-- **C114** A share is accepted exactly if it is for the job notified, gives version bits if and only if the worker has a mask,
and the hash of its header is below the target that is asked for.
Missing: that the worker and the length of the extra nonce are looked at, and that the mask is used as it was agreed on (`C114_false_size`, `C114_false_mask`). -/
theorem C114_accepted_partial (H : Bytes → BitVec 256) (p : ShareProof) (t : Compact) (v : BitVec 32)
    (hv : Spec.ShareVersion p.worker.mask p.notify p.share v) :
    p.validAt H t = true ↔ p.share.jobId = p.notify.jobId ∧ (p.worker.mask = none ↔ p.share.bits = none) ∧
      (H (Spec.shareHeader H p.worker.extranonce.extraNonce1 p.notify p.share v).write).toNat < expand t := by
  obtain ⟨v', h1, h2⟩ := C114_header H p
  cases shareVersion_unique hv h2
  unfold ShareProof.validAt
  rw [h1]
  simp only [Bool.and_eq_true, decide_eq_true_eq, beq_iff_eq, and_assoc]
  have : p.worker.mask.isSome = p.share.bits.isSome ↔ (p.worker.mask = none ↔ p.share.bits = none) := by
    cases p.worker.mask <;> cases p.share.bits <;> simp
  rw [this]

/-- **C114** A solved job is valid exactly if the job is and the hash of the header is below the target of the notification. -/
theorem C114_solved (H : Bytes → BitVec 256) (V : Validity) (x : SolvedJob) (v : BitVec 32)
    (hv : Spec.ShareVersion x.job.worker.mask x.job.notify x.share v) :
    x.valid H V = true ↔ (V.worker = true ∧ x.job.notify.digest ≠ 0 ∧ V.digests x.job.notify.path = true ∧
        expand x.job.notify.target ≠ 0 ∧ x.job.notify.now ≠ 0) ∧
      (H (Spec.shareHeader H x.job.worker.extranonce.extraNonce1 x.job.notify x.share v).write).toNat <
        expand x.job.notify.target := by
  have hj : x.job.valid V = true ↔ V.worker = true ∧ x.job.notify.digest ≠ 0 ∧ V.digests x.job.notify.path = true ∧
      expand x.job.notify.target ≠ 0 ∧ x.job.notify.now ≠ 0 := by
    unfold Job.valid Notify.valid Compact.valid
    simp only [Bool.and_eq_true, bne_iff_ne, and_assoc]
  rw [← hj]
  obtain ⟨j, s⟩ := x
  by_cases h : j.valid V = true
  · obtain ⟨v', h1, h2⟩ := C114_header H ⟨j.worker, j.notify, s⟩
    cases shareVersion_unique hv h2
    unfold SolvedJob.valid Proof.valid WorkString.valid
    rw [C114_same V j s h, h1, decide_eq_true_eq]
    exact ⟨fun a => ⟨h, a⟩, fun a => a.2⟩
  · have hf : (SolvedJob.mk j s).valid H V = false := by
      unfold SolvedJob.valid Proof.valid WorkString.valid SolvedJob.proof Job.work
      have h' : j.valid V = false := by simpa using h
      simp only [h', Bool.not_false, if_true, decide_eq_false_iff_not]
      show ¬ _ < expand 0
      rw [show expand 0 = 0 by decide]
      omega
    rw [hf]
    exact ⟨fun a => (by cases a), fun a => absurd a.1 h⟩

/-- **C114** What the library's miner finds for a valid job is accepted, both ways, if it was started with the number of the pool
and with version bits just if there is a mask. -/
theorem C114_mined (H : Bytes → BitVec 256) (V : Validity) (j : Job) (fuel : Nat) (s0 : Solution) (pr : Proof)
    (name : List Char) (hj : j.valid V = true) (h1 : s0.extraNonce1 = j.worker.extranonce.extraNonce1)
    (hb : j.worker.mask = none ↔ s0.bits = none)
    (h : cpuSolve H fuel (j.work V).puzzle s0 = some (.found pr)) :
    let s : Share := ⟨name, j.notify.jobId, pr.solution.extraNonce2, pr.solution.timestamp, pr.solution.nonce, pr.solution.bits⟩
    (SolvedJob.mk j s).valid H V = true ∧ (ShareProof.mk j.worker j.notify s).valid H = true ∧
      s.extraNonce2.length = s0.extraNonce2.length := by
  intro s
  have hw : (j.work V).puzzle = ⟨j.notify.version, j.notify.digest, j.notify.target, j.notify.merklePath, j.notify.generation1,
      j.notify.generation2, j.worker.mask.getD (-1)⟩ := by
    unfold Job.work; simp only [hj, Bool.not_true, Bool.false_eq_true, if_false]
  have ht : expand (j.work V).puzzle.target ≠ 0 := by
    rw [hw]
    unfold Job.valid Notify.valid Compact.valid at hj
    simp only [Bool.and_eq_true, bne_iff_ne, and_assoc] at hj
    exact hj.2.2.2.1
  obtain ⟨a, b, _, d, e, f, _⟩ := C47_valid_partial H fuel _ s0 pr ht h
  have hp : pr = (SolvedJob.mk j s).proof V := by
    unfold SolvedJob.proof
    obtain ⟨pu, so⟩ := pr
    cases b
    have : (j.work V).extraNonce1 = so.extraNonce1 := by
      rw [e, h1]
      unfold Job.work; simp only [hj, Bool.not_true, Bool.false_eq_true, if_false]
    rw [this]
    rfl
  have hs : (H ((SolvedJob.mk j s).proof V |>.string H).write).toNat < expand j.notify.target := by
    rw [← hp]
    have := a
    rw [hw] at this
    exact this
  refine ⟨?_, ?_, f⟩
  · unfold SolvedJob.valid Proof.valid WorkString.valid
    rw [decide_eq_true_eq]
    have : ((SolvedJob.mk j s).proof V |>.string H).target = j.notify.target := by
      show (j.work V).puzzle.target = _
      rw [hw]
    rw [this]
    exact hs
  · obtain ⟨v, h1', h2'⟩ := C114_header H ⟨j.worker, j.notify, s⟩
    unfold ShareProof.valid
    rw [C114_accepted_partial H ⟨j.worker, j.notify, s⟩ j.notify.target v h2']
    refine ⟨rfl, ?_, ?_⟩
    · show _ ↔ pr.solution.bits = none
      rw [d]; exact hb
    · rw [← h1', ← C114_same V j s hj]
      exact hs

/-- **C114** A notification made from a puzzle gives the puzzle back, but for the position of the path and the mask. -/
theorem C114_puzzle (id : List Char) (p : Puzzle) (now : BitVec 32) (clean : Bool) (ds : List (BitVec 256))
    (h : p.path.digests = ds.map some) :
    ∃ n, Notify.ofPuzzle id p now clean = some n ∧ n.jobId = id ∧ n.now = now ∧ n.clean = clean ∧
      n.puzzle = { p with path := ⟨0, ds.map some⟩, mask := -1 } := by
  have hm : (p.path.digests.mapM fun d => d) = some ds := by
    rw [h]
    clear h
    induction ds with
    | nil => rfl
    | cons d ds ih =>
      rw [List.map_cons, List.mapM_cons, ih]
      rfl
  exact ⟨_, by unfold Notify.ofPuzzle; rw [hm]; rfl, rfl, rfl, rfl, rfl⟩

/-- **C114** is false of version rolling as it is agreed on (BIP 310, and C61): the mask says which bits the miner may change, and
the library lets it change just the others.  The header is the one that the miner hashed only if the bits sent are the version
notified. -/
theorem C114_false_mask (H : Bytes → BitVec 256) (p : ShareProof) (m b v : BitVec 32) (hm : p.worker.mask = some m)
    (hb : p.share.bits = some b) (hv : Spec.Rolled m p.notify.version b v) :
    p.work.string H = Spec.shareHeader H p.worker.extranonce.extraNonce1 p.notify p.share v ↔ b = p.notify.version := by
  obtain ⟨r, h1, h2⟩ := C114_header H p
  rw [hm] at h2
  unfold Spec.ShareVersion at h2
  simp only [hb, Option.getD_some] at h2
  rw [h1]
  have hin : Spec.shareHeader H p.worker.extranonce.extraNonce1 p.notify p.share r =
      Spec.shareHeader H p.worker.extranonce.extraNonce1 p.notify p.share v ↔ r = v :=
    ⟨fun h => congrArg Header.version h, fun h => by rw [h]⟩
  rw [hin]
  constructor
  · intro h
    subst h
    apply BitVec.eq_of_getLsbD_eq
    intro i hi
    have a := h2 i hi
    have c := hv i hi
    rw [a] at c
    simp only [BitVec.getLsbD_not, hi, decide_true, Bool.true_and] at c
    cases hmi : m.getLsbD i <;> simp_all
  · intro h
    apply BitVec.eq_of_getLsbD_eq
    intro i hi
    rw [h2 i hi, hv i hi, h]
    simp

/-- **C114** is false: the way by jobs does not ask what job a share is for, nor whose it is, nor if the version bits should be
there. -/
theorem C114_false_job (H : Bytes → BitVec 256) (V : Validity) (x : SolvedJob) (name id : List Char) :
    (SolvedJob.mk x.job { x.share with name := name, jobId := id }).valid H V = x.valid H V := rfl

/-- **C114** is false: neither way compares the length of the miner's number with the one that was agreed on, or the name of the
worker with that in the share. -/
theorem C114_false_size (H : Bytes → BitVec 256) (V : Validity) (w : Worker) (n : Notify) (s : Share) (name : List Char)
    (k : Nat) (t : Compact) :
    (ShareProof.mk { w with name := name, extranonce := { w.extranonce with extraNonce2Size := k } } n s).validAt H t =
      (ShareProof.mk w n s).validAt H t ∧
    (SolvedJob.mk ⟨{ w with name := name, extranonce := { w.extranonce with extraNonce2Size := k } }, n⟩ s).valid H V =
      (SolvedJob.mk ⟨w, n⟩ s).valid H V := ⟨rfl, rfl⟩

/-- A hash for the examples: the number in the first four bytes, so that a header is hashed to its version. -/
def versionHash (b : Bytes) : BitVec 256 := BitVec.ofNat 256 (leNat (b.take 4))

/-- **C114** is false: with the mask of BIP 320 agreed on, the share of a miner that changed a bit that it may change, and whose
header is below the target, is refused; one that changed another is accepted. -/
theorem C114_false_rolling : ∃ (m : BitVec 32) (n : Notify) (good bad : Share),
    makeMask 0x1fffe000 ⟨0x1fffe000, 2⟩ = some m ∧ Spec.Rolled m n.version (good.bits.getD 0) 0x20000000 ∧
    (versionHash (Spec.shareHeader versionHash 0 n good 0x20000000).write).toNat < expand n.target ∧
    (ShareProof.mk ⟨[], {}, some m⟩ n good).valid versionHash = false ∧
    (bad.bits.getD 0) &&& ~~~ m ≠ n.version &&& ~~~ m ∧
    (ShareProof.mk ⟨[], {}, some m⟩ n bad).valid versionHash = true := by
  refine ⟨0x1fffe000, { version := 0x20002000, digest := 1, target := 0x04200010, now := 1 }, { bits := some 0x20000000 },
    { bits := some 0 }, ?_⟩
  refine ⟨by decide +kernel, ?_, by decide +kernel, by decide +kernel, by decide +kernel, by decide +kernel⟩
  unfold Spec.Rolled
  decide +kernel

/-- A valid job that a puzzle was made into, a share that solves it and what is found by mining. -/
example : (Notify.ofPuzzle "bf".toList ⟨2, 1, 0x04200010, ⟨1, [some 5]⟩, [1], [2], 0⟩ 1 true).map Notify.puzzle =
      some ⟨2, 1, 0x04200010, ⟨0, [some 5]⟩, [1], [2], -1⟩ ∧
    cpuSolve versionHash 1 (Job.work ⟨fun _ => true, true⟩
      ⟨⟨"a".toList, ⟨7, 1⟩, none⟩, { digest := 1, target := 0x04200010, now := 1, version := 2 }⟩).puzzle ⟨1, 0, [0], none, 7⟩ =
      some (.found ⟨⟨2, 1, 0x04200010, ⟨0, []⟩, [], [], -1⟩, ⟨1, 0, [0], none, 7⟩⟩) := by decide +kernel

example : (SolvedJob.mk ⟨⟨"a".toList, ⟨7, 1⟩, none⟩, { digest := 1, target := 0x04200010, now := 1, version := 2 }⟩
    { name := "a".toList, extraNonce2 := [1] }).valid versionHash ⟨fun _ => true, true⟩ = true := by decide +kernel

end Verif.Stratum
