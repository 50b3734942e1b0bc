import Verif.Merkle.Bump
import Verif.SPV.Generate

/-
BEEF: src/gigamonkey/pay/BEEF.cpp and include/gigamonkey/pay/BEEF.hpp; sums of BUMPs:
src/gigamonkey/merkle/BUMP.cpp 280-296 and 307-362.
-/

namespace Verif.Pay

open Verif Verif.SPV Verif.Chain

abbrev Digest := BitVec 256

/-- `BEEF::transaction`, BEEF.hpp 55-74. The index is a `uint64`. -/
structure BTx where
  tx : Tx
  bump : Option Nat
  deriving DecidableEq

/-- `BEEF`, BEEF.hpp 46-76. -/
structure Beef where
  version : BitVec 32
  bumps : List (Bumps.Bump Digest)
  txs : List BTx
  deriving DecidableEq

/-! ### Bytes -/

/-- `writer << BEEF::transaction`, BEEF.hpp 115-120. -/
def BTx.write (t : BTx) : Bytes :=
  t.tx.write ++ (match t.bump with | some i => 1 :: varIntWrite i | none => [0])

/-- `reader >> BEEF::transaction`, BEEF.cpp 9-19. -/
def BTx.read : Reader BTx := do
  let tx ← Tx.read
  let has ← Reader.byte
  if has == 0 then
    return ⟨tx, none⟩
  else do
    let i ← varIntRead
    return ⟨tx, some i⟩

/-- `BEEF::transaction::serialized_size`, BEEF.hpp 111-113. -/
def BTx.serializedSize (t : BTx) : Nat :=
  t.tx.serializedSize + 1 + (match t.bump with | some i => varIntSize i | none => 0)

/-- `writer << BEEF`, BEEF.hpp 87-89. -/
def Beef.write (b : Beef) : Bytes :=
  wfix 4 b.version ++ (varSeqWrite Bumps.Bump.write b.bumps ++ varSeqWrite BTx.write b.txs)

/-- `reader >> BEEF`, BEEF.hpp 91-94. -/
def Beef.read : Reader Beef := do
  let version ← Reader.fix 4 32
  let bumps ← varSeqRead Bumps.Bump.read
  let txs ← varSeqRead BTx.read
  return ⟨version, bumps, txs⟩

/-- `BEEF::serialized_size`, BEEF.hpp 102-104. -/
def Beef.serializedSize (b : Beef) : Nat :=
  4 + (varIntSize b.bumps.length + (b.bumps.map Bumps.Bump.serializedSize).sum) +
    (varIntSize b.txs.length + (b.txs.map BTx.serializedSize).sum)

/-- `BEEF::BEEF (slice)`, BEEF.hpp 106-109: bytes left over are ignored, and what the reader throws is not caught. -/
def Beef.ofBytes (bs : Bytes) : Except RErr Beef := (Beef.read bs).map (·.1)

/-- `BEEF::operator ==`, BEEF.hpp 78-80: the version is not compared. -/
def Beef.eq (a b : Beef) : Bool := a.bumps = b.bumps && a.txs = b.txs

/-! ### Validity -/

/-- How checking a BEEF can fail to give an answer: an exception from a malformed script, or what computing
the root of a BUMP ends with (BUMP.cpp 245). -/
inductive BeefErr
  | script (e : Script.DErr)
  | bump (e : Bumps.Err)
  deriving DecidableEq

/-- The loop of `BEEF::valid`, BEEF.cpp 32-45. -/
def linked (H : Bytes → Digest) : List BTx → (read : List Digest) → Bool
  | [], _ => true
  | t :: l, read =>
    if read.contains (txId H t.tx) then false
    else if t.bump.isNone && !t.tx.inputs.all fun i => read.contains i.reference.digest then false
    else linked H l (txId H t.tx :: read)

/-- `BEEF::valid`, BEEF.cpp 28-48. -/
def Beef.valid (H : Bytes → Digest) (b : Beef) : Except BeefErr Bool :=
  if b.version ≤ 0xEFBE0000#32 ∨ b.txs.length = 0 then .ok false
  else
    match txsValid (b.txs.map (·.tx)) with
    | .error e => .error (.script e)
    | .ok false => .ok false
    | .ok true => .ok (b.bumps.all Bumps.Bump.valid && linked H b.txs [])

/-- The loop of `BEEF::roots`, BEEF.cpp 50-58: a root that is zero empties the list. -/
def rootsLoop (h : Digest → Digest → Digest) : List (Bumps.Bump Digest) → List Digest → Except Bumps.Err (List Digest)
  | [], result => .ok result
  | b :: l, result =>
    match b.root h 0 with
    | .error e => .error e
    | .ok r => if r = 0 then .ok [] else rootsLoop h l (result ++ [r])

def Beef.roots (H : Bytes → Digest) (b : Beef) : Except Bumps.Err (List Digest) := rootsLoop (joined H) b.bumps []

/-- `BEEF::validate`, BEEF.hpp 96-100; `known` says whether `header (digest256)` finds a header. -/
def Beef.validate (H : Bytes → Digest) (known : Digest → Bool) (b : Beef) : Except BeefErr Bool :=
  match b.valid H with
  | .error e => .error e
  | .ok false => .ok false
  | .ok true =>
    match b.roots H with
    | .error e => .error (.bump e)
    | .ok l => .ok (l.all known)

/-! ### Sums of BUMPs -/

/-- Ordered insertion of numbers, as `ordst<uint64>::insert`. -/
def insertNat (n : Nat) : List Nat → List Nat
  | [] => [n]
  | m :: l => if n ≤ m then n :: m :: l else m :: insertNat n l

/-- What can be made of the offsets of a level, BUMP.cpp 314-320: they are taken in pairs.  Dropping two of one is taken
to be undefined. -/
def halves : List Nat → List Nat → Except Bumps.Err (List Nat)
  | [], result => .ok result
  | [_], _ => .error .ub
  | a :: _ :: l, result => halves l (insertNat (a / 2) result)

/-- The loop of `remove_unnecessary`, BUMP.cpp 325-346: offsets available and nodes kept. -/
def removeLoop {D : Type} : (current : List (Bumps.Node D)) → (generated below available : List Nat) → (kept : List (Bumps.Node D)) →
    List Nat × List (Bumps.Node D)
  | [], [], _, available, kept => (available, kept)
  | [], g :: generated, below, available, kept => removeLoop [] generated below (insertNat g available) kept
  | n :: current, generated, below, available, kept =>
    if generated = [] ∨ ∃ g ∈ generated.head?, n.offset ≤ g then
      let below' := below.dropWhile (· < n.offset * 2 % 2 ^ 64)
      removeLoop current (if generated.head? = some n.offset then generated.tail else generated) below'
        (insertNat n.offset available)
        (if below'.length < 2 ∨ below'[0]? ≠ some (n.offset * 2 % 2 ^ 64) ∨ below'[1]? ≠ some (n.offset * 2 % 2 ^ 64 + 1)
          then Bumps.insert n kept else kept)
    else
      match generated with
      | [] => (available, kept)
      | g :: generated => removeLoop (n :: current) generated below (insertNat g available) kept
termination_by current generated => current.length + generated.length
decreasing_by
  all_goals simp_all
  all_goals (try split) <;> (try rw [List.length_tail]) <;> omega

/-- The loop of `remove_unnecessary_nodes`, BUMP.cpp 352-362. -/
def removeLevels {D : Type} : List (List (Bumps.Node D)) → List Nat → Except Bumps.Err (List (List (Bumps.Node D)))
  | [], _ => .ok []
  | level :: path, below =>
    (halves below []).bind fun generated =>
      let (available, kept) := removeLoop level generated below [] []
      (removeLevels path available).map fun l => kept :: l

/-- The loop of `operator +`, BUMP.cpp 287-293: the first of nothing is undefined. -/
def combineLevels {D : Type} : List (List (Bumps.Node D)) → List (List (Bumps.Node D)) → Except Bumps.Err (List (List (Bumps.Node D)))
  | [], _ => .ok []
  | _ :: _, [] => .error .ub
  | a :: left, b :: right => (combineLevels left right).map fun l => Bumps.combine a b :: l

/-- `BUMP operator +`, BUMP.cpp 280-296. -/
def addBump {D : Type} (a b : Bumps.Bump D) : Except Bumps.Err (Bumps.Bump D) :=
  if a.height ≠ b.height then .ok ⟨0, []⟩
  else (combineLevels a.path b.path).bind fun l => (removeLevels l []).map fun p => ⟨a.height, p⟩

/-! ### From proofs -/

/-- `SPV_proof_writer`, BEEF.cpp 69-99.  The transactions are held in the order in which they are met: the code
puts each before those already there, and reverses them in the end (lines 86, 91, 96, 105, 106). -/
structure Writer where
  txs : List BTx := []
  ids : List Digest := []
  rootToIndex : List (Digest × Nat) := []
  bumps : List (Bumps.Bump Digest) := []

/-- A confirmed transaction, BEEF.cpp 80-92. Heights and indices are converted to `uint64`. -/
def Writer.confirmed (w : Writer) (id : Digest) (t : Tx) (c : Confirmation) : Except Bumps.Err Writer :=
  let b := Bumps.Bump.ofBranch (c.height % 2 ^ 64) c.path.index id c.path.digests
  match w.rootToIndex.find? fun e => e.1 = c.header.merkleRoot with
  | some (_, i) =>
    match w.bumps[i]? with
    | none => .error .ub
    | some a => (addBump a { b with height := a.height }).map fun s =>
        { w with bumps := w.bumps.set i s, txs := w.txs ++ [⟨t, some i⟩] }
  | none => .ok { w with
      bumps := w.bumps ++ [b]
      rootToIndex := (c.header.merkleRoot, w.bumps.length) :: w.rootToIndex
      txs := w.txs ++ [⟨t, some w.bumps.length⟩] }

mutual

/-- `read_node`, BEEF.cpp 76-98. -/
def writeNode (id : Digest) : Node → Writer → Except Bumps.Err Writer
  | .confirmed t c, w => if w.ids.contains id then .ok w else ({ w with ids := id :: w.ids } : Writer).confirmed id t c
  | .derived t m, w =>
    if w.ids.contains id then .ok w
    else (writeMap m { w with ids := id :: w.ids }).map fun w => { w with txs := w.txs ++ [⟨t, none⟩] }

/-- The loops over a map, BEEF.cpp 95 and 103, in whatever order the map has; a null pointer is undefined. -/
def writeMap : NodeMap → Writer → Except Bumps.Err Writer
  | .nil, w => .ok w
  | .null _ _, _ => .error .ub
  | .cons k n m, w => (writeNode k n w).bind fun w => writeMap m w

end

/-- `BEEF::BEEF (proof)`, BEEF.cpp 102-108 and 217. -/
def Beef.ofProof (payment : List Tx) (m : NodeMap) : Except Bumps.Err Beef :=
  (writeMap m {}).map fun w => ⟨0xEFBE0001#32, w.bumps, w.txs ++ payment.map fun t => ⟨t, none⟩⟩

/-! ### To proofs -/

/-- What a map has under a digest: an entry that is there. -/
def _root_.Verif.SPV.NodeMap.find : NodeMap → Digest → Option Node
  | .nil, _ => none
  | .null k m, d => if k = d then none else m.find d
  | .cons k n m, d => if k = d then some n else m.find d

/-- `SPV_proof_reader`, BEEF.cpp 128-137. -/
structure RState where
  nodes : NodeMap := .nil
  ids : List Digest := []
  roots : List Digest := []

/-- `read_SPV_proof_leaf`, BEEF.cpp 110-126: nothing if there is no header at the height.  A digest that is not among the
paths is taken to lead to an exception in the data library; if there are several for one digest, the first is taken. -/
def readLeaf (at' : Nat → Option Header) (id : Digest) (t : Tx) (height : Nat) (paths : List (Digest × Nat × List (Option Digest))) :
    Except PErr (Option Node) :=
  match at' height with
  | none => .ok none
  | some h =>
    match paths.find? fun e => e.1 = id with
    | none => .error .thrown
    | some (_, i, ds) => .ok (some (.confirmed t ⟨⟨i, ds⟩, height, h⟩))

/-- The loop of `read_SPV_proof_node`, BEEF.cpp 196-206. -/
def readInputs (nodes : NodeMap) : List Input → (prev : NodeMap) → (roots : List Digest) → Option (NodeMap × List Digest)
  | [], prev, roots => some (prev, roots)
  | i :: is, prev, roots =>
    match nodes.find i.reference.digest with
    | none => none
    | some n => readInputs nodes is (prev.put i.reference.digest n) (roots.filter (· ≠ i.reference.digest))

/-- One turn of the loop of the reader, BEEF.cpp 148-159: nothing where the code returns. -/
def readTx (H : Bytes → Digest) (at' : Nat → Option Header) (merks : List (Nat × List (Digest × Nat × List (Option Digest))))
    (s : RState) (t : BTx) : Except PErr (Option RState) :=
  let id := txId H t.tx
  match t.bump with
  | some k =>
    match merks[k]? with
    | none => .error .ub
    | some (height, paths) =>
      (readLeaf at' id t.tx height paths).bind fun o =>
        match o with
        | none => .ok none
        | some n => if s.nodes.has id then .error .thrown else .ok (some { s with nodes := .cons id n s.nodes })
  | none =>
    match readInputs s.nodes t.tx.inputs .nil s.roots with
    | none => .ok none
    | some (prev, roots) =>
      if s.nodes.has id then .error .thrown
      else .ok (some ⟨.cons id (.derived t.tx prev) s.nodes, s.ids ++ [id], id :: roots.filter (· ≠ id)⟩)

def readTxs (H : Bytes → Digest) (at' : Nat → Option Header) (merks : List (Nat × List (Digest × Nat × List (Option Digest)))) :
    List BTx → RState → Except PErr (Option RState)
  | [], s => .ok (some s)
  | t :: l, s =>
    (readTx H at' merks s t).bind fun o =>
      match o with
      | none => .ok none
      | some s => readTxs H at' merks l s

/-- A map merged into another, which keeps its entries, BEEF.cpp 176-180. -/
def mergeMap : NodeMap → NodeMap → NodeMap
  | .nil, p => p
  | .null _ m, p => mergeMap m p
  | .cons k n m, p => mergeMap m (p.put k n)

/-- The loop that makes the payment, BEEF.cpp 164-182: nothing where the code returns.  The payment is held in order. -/
def collect (s : RState) : List Digest → List Tx → NodeMap → Option (List Tx × NodeMap)
  | [], payment, m => some (payment, m)
  | id :: ids, payment, m =>
    if !s.roots.contains id then collect s ids payment m
    else
      match s.nodes.find id with
      | some (.derived t prev) => collect s ids (payment ++ [t]) (mergeMap prev m)
      | _ => none

/-- The paths of the BUMPs, BEEF.cpp 142-146. -/
def merksOf (H : Bytes → Digest) : List (Bumps.Bump Digest) → Except PErr (List (Nat × List (Digest × Nat × List (Option Digest))))
  | [] => .ok []
  | b :: l =>
    match b.paths (joined H) with
    | none => .error .ub
    | some p => (merksOf H l).map fun r => (b.height, p) :: r

/-- `BEEF::read_SPV_proof`, BEEF.cpp 139-188 and 219-221: where the reader returns early the proof is empty. -/
def Beef.readProof (H : Bytes → Digest) (at' : Nat → Option Header) (b : Beef) : Except PErr (List Tx × NodeMap) :=
  (merksOf H b.bumps).bind fun merks =>
    (readTxs H at' merks b.txs {}).map fun o =>
      ((o.bind fun s => collect s s.ids [] .nil).getD ([], .nil))

end Verif.Pay
