import Verif.Merkle.Model
import Verif.Serial.Model

/-
BUMPs: src/gigamonkey/merkle/BUMP.cpp and include/gigamonkey/merkle/BUMP.hpp.

`ordst<X>` of the data library is taken as a list in ascending order, first the
smallest, and `insert` and `>>=` on it as insertion in order that keeps equal elements.
-/

namespace Verif.Bumps

variable {D : Type}

/-- Why a computation on a BUMP ends: the exception `validation_error`, BUMP.cpp 245, or
undefined behaviour. -/
inductive Err
  | invalid
  | ub
  deriving DecidableEq, Repr

/-- `enum class flag : byte`, BUMP.hpp 58-62; other bytes occur on reading. -/
abbrev intermediate : UInt8 := 0
abbrev duplicate : UInt8 := 1
abbrev client : UInt8 := 2

/-- `struct node`, BUMP.hpp 64-98; the offset is a `uint64`. -/
structure Node (D : Type) where
  offset : Nat
  flag : UInt8
  digest : Option D
  deriving DecidableEq, Repr

/-- `node::valid`, BUMP.hpp 73-75. -/
def Node.valid (n : Node D) : Bool :=
  n.digest.isSome && n.flag != duplicate || !n.digest.isSome && n.flag == duplicate

/-- `ordst<node>::insert`, ordered by offset, BUMP.hpp 77-79. -/
def insert (n : Node D) : List (Node D) → List (Node D)
  | [] => [n]
  | m :: l => if n.offset ≤ m.offset then n :: m :: l else m :: insert n l

/-- `struct BUMP`, BUMP.hpp 100-106. -/
structure Bump (D : Type) where
  height : Nat
  path : List (List (Node D))
  deriving DecidableEq, Repr

/-- `BUMP::valid`, BUMP.hpp 118-120. -/
def Bump.valid (b : Bump D) : Bool := b.path.length != 0 && b.path.all fun l => l.all Node.valid

/-! ### Bytes -/

/-- A digest is written as its 32 bytes. -/
abbrev Digest := BitVec 256

open Reader in
/-- `writer << node`, BUMP.cpp 8-13. -/
def Node.write (n : Node Digest) : Bytes :=
  varIntWrite n.offset ++ [n.flag] ++ (match n.digest with | some d => wfix 32 d | none => [])

open Reader in
/-- `reader >> node`, BUMP.cpp 15-32. -/
def Node.read : Reader (Node Digest) := do
  let offset ← varIntRead
  let flag ← byte
  if flag == duplicate then
    return ⟨offset, duplicate, none⟩
  else do
    let d ← fix 32 256
    return ⟨offset, flag, some d⟩

/-- `node::serialized_size`, BUMP.hpp 95-97. -/
def Node.serializedSize (n : Node D) : Nat := varIntSize n.offset + (if n.flag == duplicate then 1 else 33)

/-- `writer << BUMP`, BUMP.cpp 34-43; `depth ()` is a byte, BUMP.hpp 126-128. -/
def Bump.write (b : Bump Digest) : Bytes :=
  varIntWrite b.height ++ [UInt8.ofNat b.path.length] ++ b.path.flatMap (varSeqWrite Node.write)

/-- A level read: BUMP.cpp 53-58. -/
def levelRead : Reader (List (Node Digest)) := do
  let nodes ← varSeqRead Node.read
  return nodes.foldl (fun l n => insert n l) []

/-- `reader >> BUMP`, BUMP.cpp 45-65. -/
def Bump.read : Reader (Bump Digest) := do
  let height ← varIntRead
  let depth ← Reader.byte
  let path ← Reader.many levelRead depth.toNat
  return ⟨height, path⟩

/-- `BUMP::serialized_size`, BUMP.cpp 71-81. -/
def Bump.serializedSize (b : Bump D) : Nat :=
  varIntSize b.height + 1 +
    (b.path.map fun l => varIntSize l.length + (l.map Node.serializedSize).sum).sum

/-- `BUMP::operator bytes`, BUMP.cpp 167-173: `none` is the exception.  The writer throws
when the announced size is too small and leaves zeros when it is too large; neither is
modelled as it does not occur (`C33_size_exact`). -/
def Bump.toBytes (b : Bump Digest) : Option Bytes := if b.valid then some b.write else none

/-- `BUMP::BUMP (bytes)`, BUMP.cpp 175-182: bytes left over are ignored. -/
def Bump.ofBytes (bs : Bytes) : Except Err (Bump Digest) :=
  match Bump.read bs with
  | .ok (b, _) => .ok b
  | .error .eos => .ok ⟨0, []⟩
  | .error .ub => .error .ub

/-! ### The root -/

/-- The order in which `combine`, BUMP.cpp 216-242, takes the nodes of the two reversed
lists. -/
def picks : List (Node D) → List (Node D) → List (Node D)
  | [], [] => []
  | a :: as, [] => a :: picks as []
  | [], b :: bs => b :: picks [] bs
  | a :: as, b :: bs =>
    if a.offset < b.offset then a :: picks as (b :: bs)
    else if a.offset > b.offset then b :: picks (a :: as) bs
    else (if a.flag = client then a else if b.flag = client then b
      else if a.flag = duplicate then a else if b.flag = duplicate then b else a) :: picks as bs
termination_by as bs => as.length + bs.length

/-- `combine`, BUMP.cpp 216-242. -/
def combine (a b : List (Node D)) : List (Node D) :=
  (picks a.reverse b.reverse).foldl (fun l n => insert n l) []

/-- The loop of `step`, BUMP.cpp 257-266, on the reversed nodes. -/
def stepLoop (h : D → D → D) : List (Node D) → List (Node D) → Except Err (List (Node D))
  | n0 :: n1 :: nodes, result =>
    if n0.offset / 2 ≠ n1.offset / 2 ∨ (n1.offset + 1) % 2 ^ 64 ≠ n0.offset then .error .invalid
    else match n1.digest with
      | none => .error .ub
      | some d1 =>
        if n0.flag = duplicate then
          stepLoop h nodes (insert ⟨n0.offset / 2, intermediate, some (h d1 d1)⟩ result)
        else match n0.digest with
          | none => .error .ub
          | some d0 => stepLoop h nodes (insert ⟨n0.offset / 2, intermediate, some (h d1 d0)⟩ result)
  | [_], _ => .error .ub
  | [], result => .ok result

/-- `step`, BUMP.cpp 248-269. -/
def step (h : D → D → D) (x : List (Node D)) : Except Err (List (Node D)) :=
  if x.length % 2 = 1 then .error .invalid else stepLoop h x.reverse []

/-- The loop of `BUMP::root`, BUMP.cpp 301-302. -/
def climb (h : D → D → D) : List (List (Node D)) → List (Node D) → Except Err (List (Node D))
  | [], current => .ok current
  | next :: path, current =>
    match step h (combine current next) with
    | .error e => .error e
    | .ok current => climb h path current

/-- `BUMP::root`, BUMP.cpp 298-305. -/
def Bump.root (h : D → D → D) (zero : D) (b : Bump D) : Except Err D :=
  match climb h b.path [] with
  | .error e => .error e
  | .ok [n] => .ok (n.digest.getD zero)
  | .ok _ => .ok zero

/-- `BUMP::validate`, BUMP.cpp 272-278. -/
def Bump.validate [DecidableEq D] (h : D → D → D) (zero : D) (b : Bump D) (expected : D) : Except Err Bool :=
  match b.root h zero with
  | .ok r => .ok (expected = r)
  | .error .invalid => .ok false
  | .error .ub => .error .ub

/-! ### Branches -/

/-- `next_offset`, BUMP.cpp 67-69: bit 1 is flipped, then bit 0 dropped. -/
def nextOffset (offset : Nat) : Nat := (offset ^^^ 2) / 2

/-- The loop of `to_path`, BUMP.cpp 149-161, from the second level on.  `last` is not
used by the code. -/
def toPathLoop : (pathIndex : Nat) → List (Option D) → List (List (Node D))
  | _, [] => []
  | p, some d :: ds => [⟨p, intermediate, some d⟩] :: toPathLoop (nextOffset p) ds
  | p, none :: ds => [⟨p, duplicate, none⟩] :: toPathLoop (nextOffset p) ds

/-- `to_path`, BUMP.cpp 141-164; `path_index` is a `uint32`. -/
def toPath (index : Nat) (leaf : D) (ds : List (Option D)) : List (List (Node D)) :=
  match toPathLoop ((index ^^^ 1) % 2 ^ 32) ds with
  | [] => []
  | l :: levels => l.foldl (fun l n => insert n l) [⟨index, client, some leaf⟩] :: levels

/-- `BUMP::BUMP (block_height, branch)`, BUMP.cpp 195. -/
def Bump.ofBranch (height index : Nat) (leaf : D) (ds : List (Option D)) : Bump D :=
  ⟨height, toPath index leaf ds⟩

/-- `struct smash`, BUMP.cpp 366-373. -/
inductive Smash (D : Type)
  | leaf (n : Node D)
  | pair (n : Node D) (left right : Smash D)
  deriving DecidableEq, Repr

def Smash.node : Smash D → Node D
  | .leaf n => n
  | .pair n _ _ => n

/-- Ordered insertion by offset, BUMP.cpp 379-381. -/
def insertSmash (s : Smash D) : List (Smash D) → List (Smash D)
  | [] => [s]
  | t :: l => if s.node.offset ≤ t.node.offset then s :: t :: l else t :: insertSmash s l

/-- The order in which `path_next_layer` takes its nodes, BUMP.cpp 411-424. -/
def smashPicks : List (Smash D) → List (Node D) → List (Smash D)
  | [], [] => []
  | a :: as, [] => a :: smashPicks as []
  | [], b :: bs => .leaf b :: smashPicks [] bs
  | a :: as, b :: bs =>
    if a.node.offset < b.offset then a :: smashPicks as (b :: bs)
    else if a.node.offset > b.offset then .leaf b :: smashPicks (a :: as) bs
    else a :: smashPicks as bs
termination_by as bs => as.length + bs.length

/-- `smash_together`, BUMP.cpp 397-404: `none` when a missing digest is read. -/
def smashTogether (h : D → D → D) (a b : Smash D) : Option (Smash D) := do
  let da ← a.node.digest
  if b.node.flag = duplicate then
    some (.pair ⟨a.node.offset / 2, intermediate, some (h da da)⟩ a b)
  else
    let db ← b.node.digest
    some (.pair ⟨a.node.offset / 2, intermediate, some (h da db)⟩ a b)

/-- The second loop of `path_next_layer`, BUMP.cpp 428-431. -/
def smashLoop (h : D → D → D) : List (Smash D) → List (Smash D) → Option (List (Smash D))
  | a :: b :: l, result =>
    match smashTogether h a b with
    | none => none
    | some s => smashLoop h l (insertSmash s result)
  | [_], _ => none
  | [], result => some result

/-- `path_next_layer`, BUMP.cpp 406-434. -/
def nextLayer (h : D → D → D) (generated : List (Smash D)) (provided : List (Node D)) :
    Option (List (Smash D)) :=
  smashLoop h ((smashPicks generated.reverse provided.reverse).foldl (fun l s => insertSmash s l) []) []

/-- `read_down`, BUMP.cpp 436-447: the insertions made, digest, index and digests. -/
def readDown : Smash D → List (Option D) → Option (List (D × Nat × List (Option D)))
  | .leaf n, ds =>
    if n.flag = client then n.digest.map fun d => [(d, n.offset, ds)] else some []
  | .pair n left right, ds =>
    if n.flag = client then n.digest.map fun d => [(d, n.offset, ds)]
    else do
      let dl ← left.node.digest
      let sib ← if right.node.flag = duplicate then some dl else right.node.digest
      let a ← readDown left (some sib :: ds)
      let b ← readDown right (some dl :: ds)
      some (a ++ b)

/-- The loop of `BUMP::paths`, BUMP.cpp 389-390. -/
def layers (h : D → D → D) : List (List (Node D)) → List (Smash D) → Option (List (Smash D))
  | [], s => some s
  | n :: path, s =>
    match nextLayer h s n with
    | none => none
    | some s => layers h path s

/-- `BUMP::paths`, BUMP.cpp 388-394: the insertions into the map, in their order. -/
def Bump.paths (h : D → D → D) (b : Bump D) : Option (List (D × Nat × List (Option D))) := do
  let s ← layers h b.path []
  let z ← s.head?
  readDown z []

end Verif.Bumps
