import Verif.Boost.Redeem
import Verif.Pay.Beef
import Verif.Stratum.Params

/-
Comparing values: `operator ==` and `operator <=>` of include/gigamonkey/timechain.hpp 334-360 and 455-461, merkle/proof.hpp 152-188,
merkle/BUMP.hpp 77-83 and 108-110, boost/boost.hpp 299-316 and 399-401, pay/BEEF.hpp 71-80, stratum/mining_subscribe.hpp 124-126 and 155-157.

Digests and indices are compared as numbers.  The other `operator ==` of these headers compare every part; a value of the model is then
equal to another one exactly if they are the same, and they are not written out here.
-/

namespace Verif.Compare

open Verif

abbrev Digest := BitVec 256

/-- `<=>` of digests and of unsigned numbers. -/
def bits {n : Nat} (a b : BitVec n) : Ordering := compare a.toNat b.toNat

/-- `operator <=> (outpoint, outpoint)`, timechain.hpp 455-457. -/
def outpoint (a b : Outpoint) : Ordering := if a.digest = b.digest then bits a.index b.index else bits a.digest b.digest

/-- `operator <=> (header, header)`, timechain.hpp 459-461, with that of timestamps, timestamp.hpp 132-134. -/
def header (a b : Header) : Ordering := bits a.timestamp b.timestamp

/-- `candidate::prevout::operator <=>`, boost.hpp 311-313. -/
def prevout (a b : Boost.Prevout) : Ordering := outpoint a.reference b.reference

/-- `path`, merkle/proof.hpp 62-73: an index and digests. -/
abbrev Path := Nat × List (Option Digest)

/-- `leaf`, merkle/proof.hpp 75-90: a digest and an index. -/
abbrev Leaf := Digest × Nat

/-- `branch`, merkle/proof.hpp 99-130: a leaf and digests. -/
abbrev Branch := Leaf × List (Option Digest)

/-- `operator <=> (path, path)`, merkle/proof.hpp 156-158. -/
def path (a b : Path) : Ordering := compare a.1 b.1

/-- `operator <=> (leaf, leaf)`, merkle/proof.hpp 164-167. -/
def leaf (a b : Leaf) : Ordering := if a.2 = b.2 then bits a.1 b.1 else compare a.2 b.2

/-- `operator <=> (branch, branch)`, merkle/proof.hpp 177-179. -/
def branch (a b : Branch) : Ordering := leaf a.1 b.1

/-- The branch of a proof, merkle/proof.hpp 134. -/
def branchOf (p : Merkle.Proof Digest) : Branch := ((p.leaf, p.index), p.digests)

/-- `operator <=> (proof, proof)`, merkle/proof.hpp 185-188. -/
def proof (a b : Merkle.Proof Digest) : Ordering :=
  if branchOf a = branchOf b then bits a.root b.root else branch (branchOf a) (branchOf b)

/-- `BUMP::node::operator <=>`, BUMP.hpp 77-79. -/
def node (a b : Bumps.Node Digest) : Ordering := compare a.offset b.offset

/-- `operator == (proof, proof)`, boost.hpp 399-401, with that of proofs of work, work/proof.hpp 202-204, which compares everything. -/
def boostEqual (a b : Boost.BProof) : Bool := decide (a.kind = b.kind) && decide (a.work = b.work)

/-- `BEEF::operator ==`, BEEF.hpp 78-80, with those of its parts, BUMP.hpp 81-83 and 108-110, BEEF.hpp 71-73, which compare everything. -/
def beefEqual (a b : Pay.Beef) : Bool := a.eq b

/-- `==` of lists of subscriptions. -/
def subscriptionsEqual : List Stratum.Subscription → List Stratum.Subscription → Bool
  | [], [] => true
  | a :: l, b :: m => a.same b && subscriptionsEqual l m
  | _, _ => false

/-- `subscribe_response::parameters::operator ==`, mining_subscribe.hpp 155-157. -/
def subscribedEqual (a b : Stratum.Subscribed) : Bool :=
  subscriptionsEqual a.subscriptions b.subscriptions && decide (a.extranonce = b.extranonce)

end Verif.Compare
