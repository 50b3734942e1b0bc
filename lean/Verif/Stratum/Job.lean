import Verif.Stratum.Session
import Verif.Work.Model

/-
What a share of a Stratum session proves: stratum/job.hpp, `Stratum::proof` of stratum/mining_notify.hpp and the conversions of
notifications and puzzles.

`Hash256` is a parameter, as in `Verif.Work`.  Whether a list of digests or a `worker` (which has no function `valid`) is valid is
for the data library to say: `Validity` stands for what it says.
-/

namespace Verif.Stratum

open Verif.Net Verif.Text Verif.Work

/-- `data::valid` of a `Merkle::digests` and of a `worker`. -/
structure Validity where
  digests : List (BitVec 256) → Bool
  worker : Bool

/-- mining.hpp 50-60, `worker`. -/
structure Worker where
  name : List Char := []
  extranonce : Extranonce := {}
  mask : Option (BitVec 32) := none
  deriving DecidableEq

/-- mining_notify.hpp 38-40, `notify::parameters::valid`; a timestamp is valid if it is not zero (timestamp.hpp 25). -/
def Notify.valid (V : Validity) (n : Notify) : Bool :=
  n.digest != 0 && V.digests n.path && Compact.valid n.target && n.now != 0

/-- `Merkle::path {0, Path}`, mining_notify.hpp 54, 98 and 100 and job.hpp 86: the digests of a notification are all there. -/
def Notify.merklePath (n : Notify) : Path := ⟨0, n.path.map some⟩

/-- mining_notify.hpp 53-55: the mask is that of work/proof.hpp 64. -/
def Notify.puzzle (n : Notify) : Puzzle :=
  ⟨n.version, n.digest, n.target, n.merklePath, n.generation1, n.generation2, -1⟩

/-- mining_notify.hpp 45-47.  Simplified: none if the path of the puzzle has a digest that is to be duplicated, as a notification
here has none. -/
def Notify.ofPuzzle (id : List Char) (p : Puzzle) (now : BitVec 32) (clean : Bool) : Option Notify :=
  (p.path.digests.mapM fun d => d).map fun ds => ⟨id, p.digest, p.header, p.body, ds, p.category, p.target, now, clean⟩

/-- job.hpp 26-40, `job`. -/
structure Job where
  worker : Worker := {}
  notify : Notify := {}
  deriving DecidableEq

/-- job.hpp 76-78. -/
def Job.valid (V : Validity) (j : Job) : Bool := V.worker && j.notify.valid V

/-- work/proof.hpp 75-84, `work::job`. -/
structure WorkJob where
  puzzle : Puzzle
  extraNonce1 : BitVec 32
  deriving DecidableEq

/-- work/proof.hpp 36, 222 and 224, the default job. -/
def WorkJob.empty : WorkJob := ⟨Proof.empty.puzzle, 0⟩

/-- job.hpp 80-91, `job::operator work::job`. -/
def Job.work (V : Validity) (j : Job) : WorkJob :=
  if !j.valid V then WorkJob.empty
  else ⟨⟨j.notify.version, j.notify.digest, j.notify.target, j.notify.merklePath, j.notify.generation1, j.notify.generation2,
    j.worker.mask.getD (-1)⟩, j.worker.extranonce.extraNonce1⟩

/-- The `work::share` of a share with the first extra nonce, work/proof.hpp 107-116. -/
def Share.solution (s : Share) (n1 : BitVec 32) : Solution := ⟨s.timestamp, s.nonce, s.extraNonce2, s.bits, n1⟩

/-- job.hpp 42-51, `solved`. -/
structure SolvedJob where
  job : Job
  share : Share
  deriving DecidableEq

/-- job.hpp 99-101 and work/proof.hpp 130, `solved::proof`. -/
def SolvedJob.proof (V : Validity) (s : SolvedJob) : Proof :=
  ⟨(s.job.work V).puzzle, s.share.solution (s.job.work V).extraNonce1⟩

/-- job.hpp 103-105, `solved::valid`. -/
def SolvedJob.valid (H : Bytes → BitVec 256) (V : Validity) (s : SolvedJob) : Bool := (s.proof V).valid H

/-- mining_notify.hpp 89-92, `Stratum::proof`. -/
structure ShareProof where
  worker : Worker
  notify : Notify
  share : Share
  deriving DecidableEq

/-- mining_notify.hpp 94-102, `operator work::proof`. -/
def ShareProof.work (p : ShareProof) : Proof :=
  ⟨match p.worker.mask with
    | some m => ⟨p.notify.version, p.notify.digest, p.notify.target, p.notify.merklePath, p.notify.generation1,
        p.notify.generation2, m⟩
    | none => ⟨p.notify.version, p.notify.digest, p.notify.target, p.notify.merklePath, p.notify.generation1,
        p.notify.generation2, -1⟩,
   p.share.solution p.worker.extranonce.extraNonce1⟩

/-- mining_notify.hpp 108-112, `proof::valid (compact)`. -/
def ShareProof.validAt (H : Bytes → BitVec 256) (p : ShareProof) (t : Compact) : Bool :=
  (p.share.jobId = p.notify.jobId) && (p.worker.mask.isSome == p.share.bits.isSome) &&
    ((H (p.work.string H).write).toNat < expand t)

/-- mining_notify.hpp 104-106, `proof::valid`. -/
def ShareProof.valid (H : Bytes → BitVec 256) (p : ShareProof) : Bool := p.validAt H p.notify.target

end Verif.Stratum
