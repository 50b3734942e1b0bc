import Verif.Merkle.Model

/-
The dual of a Merkle tree: merkle/dual.hpp, merkle/dual.cpp and the class
`dual_by_index` of merkle.cpp.  A dual is a map from leaves to the paths that prove
them, together with the root.
-/

namespace Verif.Merkle

variable {D : Type} [DecidableEq D]

/-- `path`, merkle/proof.hpp 62-72. -/
structure Path (D : Type) where
  index : Nat
  digests : List (Option D)
  deriving DecidableEq, Repr

/-- `branch`, merkle/proof.hpp 99-130: a leaf and the path from it. -/
structure Branch (D : Type) where
  leaf : D
  index : Nat
  digests : List (Option D)
  deriving DecidableEq, Repr

/-- `dual`, merkle/dual.hpp 24-27.  `Paths` is a map: a list in which no key comes twice. -/
structure Dual (D : Type) where
  paths : List (D × Path D)
  root : D
  deriving DecidableEq, Repr

/-- How a calculation ends that does not give a value. -/
inductive DErr
  | ub
  | never
  deriving DecidableEq, Repr

/-- `branch::rest`, merkle/proof.hpp 117-120 with `leaf::next`, 84-89: one step towards the root. -/
def Branch.rest (h : D → D → D) (b : Branch D) : Branch D :=
  match b.digests with
  | [] => b
  | o :: ds =>
    ⟨if b.index % 2 = 1 then h (o.getD b.leaf) b.leaf else h b.leaf (o.getD b.leaf), b.index / 2, ds⟩

/-- `leaf <=> leaf`, merkle/proof.hpp 164-167, by which branches are ordered (177-179).
`rank` is the number a digest stands for. -/
def Branch.le (rank : D → Nat) (a b : Branch D) : Bool :=
  if a.index == b.index then rank a.leaf ≤ rank b.leaf else a.index < b.index

/-- `ordst >>= branch`: insertion into a list kept in order, equals being kept. -/
def insertBranch (rank : D → Nat) (b : Branch D) : List (Branch D) → List (Branch D)
  | [] => [b]
  | c :: l => if b.le rank c then b :: c :: l else c :: insertBranch rank b l

/-- One turn of the loop of `dual::valid`, merkle/dual.cpp 21-29: the branches are
stacked, hence read backwards, each goes one step up, and is put into the new list
unless it is the first one there. -/
def pass (h : D → D → D) (rank : D → Nat) (l : List (Branch D)) : List (Branch D) :=
  l.reverse.foldl (fun cur b => if cur.head? = some (b.rest h) then cur else insertBranch rank (b.rest h) cur) []

/-- The test that ends the loop, merkle/dual.cpp 19. -/
def settled : List (Branch D) → Bool
  | [b] => b.digests.isEmpty
  | _ => false

/-- The loop of `dual::valid`, merkle/dual.cpp 18-31.  The code has no bound on the
number of turns; here `turns` is one more than the longest path.  That nothing changes
the verdict after that many is proved in DualProps (`C98_never`). -/
def settle (h : D → D → D) (rank : D → Nat) : (turns : Nat) → List (Branch D) → Except DErr (List (Branch D))
  | 0, l => if settled l then .ok l else .error .never
  | n + 1, l => if settled l then .ok l else settle h rank n (pass h rank l)

/-- The branches `dual::valid` starts from, merkle/dual.cpp 14-16. -/
def Dual.branches (rank : D → Nat) (d : Dual D) : List (Branch D) :=
  d.paths.foldl (fun cur e => insertBranch rank ⟨e.1, e.2.index, e.2.digests⟩ cur) []

/-- The longest path. -/
def Dual.depth (d : Dual D) : Nat := d.paths.foldl (fun n e => max n e.2.digests.length) 0

/-- The comparison with the first branch, merkle/dual.cpp 33. -/
def rootIs (r : D) : List (Branch D) → Except DErr Bool
  | b :: _ => .ok (r = b.leaf)
  | [] => .error .ub

/-- `dual::valid`, merkle/dual.cpp 11-35.  A digest is valid if it is not zero; the
map itself is taken to be valid. -/
def Dual.valid (h : D → D → D) (rank : D → Nat) (zero : D) (d : Dual D) : Except DErr Bool :=
  if d.root = zero ∨ d.paths = [] then .ok false
  else (settle h rank (d.depth + 1) (d.branches rank)).bind (rootIs d.root)

/-- `dual::contains` and `dual::operator []`, merkle/dual.hpp 39-47: nothing for a leaf that is not there. -/
def Dual.find (d : Dual D) (t : D) : Option (Path D) := (d.paths.find? fun e => e.1 = t).map (·.2)

/-- `dual_by_index::Branches`, merkle.cpp 203: a `std::map` from an index to the leaf
and the digests after it, as a list in ascending order. -/
abbrev ByIndex (D : Type) := List (Nat × List (Option D))

/-- `insert_or_assign`. -/
def ByIndex.put (k : Nat) (v : List (Option D)) : ByIndex D → ByIndex D
  | [] => [(k, v)]
  | (j, w) :: l => if k < j then (k, v) :: (j, w) :: l else if k = j then (k, v) :: l else (j, w) :: ByIndex.put k v l

/-- `find`. -/
def ByIndex.find (b : ByIndex D) (k : Nat) : Option (List (Option D)) := (b.find? fun e => e.1 = k).map (·.2)

/-- `while (index >> height == nearest >> height && height > 0) height--;`, merkle.cpp 209. -/
def lastCommon (index nearest : Nat) : Nat → Nat
  | 0 => 0
  | n + 1 => if index >>> (n + 1) = nearest >>> (n + 1) then lastCommon index nearest n else n + 1

/-- `add_nearest`, merkle.cpp 206-229.  Numbers are `uint32`, so that shifting by 32 or more is
undefined; so is taking the first of nothing. -/
def addNearest (b : ByIndex D) (index : Nat) (d : List (Option D)) (nearest : Nat) : Except DErr (ByIndex D) :=
  let height := lastCommon index nearest (d.length - 1) + 1
  let x := (b.find nearest).getD []
  if 32 ≤ d.length - 1 then .error .ub
  else if d.length < height + 1 ∨ x.length < height + 1 then .error .ub
  else .ok (b.put index (d.take (height + 1) ++ x.drop (height + 1)))

/-- The search between two leaves, merkle.cpp 273-277. -/
def bisect (leaves : List Nat) (index : Nat) (min max : Nat) : Nat × Nat :=
  if max - min > 1 then
    let mid := (max - min) / 2 + min
    if index > leaves.getD mid 0 then bisect leaves index mid max else bisect leaves index min mid
  else (min, max)
termination_by max - min
decreasing_by all_goals omega

/-- `add`, merkle.cpp 231-284: `none` if the index is there already with another path. -/
def ByIndex.add (b : ByIndex D) (p : Branch D) : Except DErr (Option (ByIndex D)) :=
  let index := p.index % 2 ^ 32
  let d := some p.leaf :: p.digests
  match b.find index with
  | some v => .ok (if v = d then some b else none)
  | none =>
    let leaves := b.map (·.1)
    let shift := d.length - 2
    if leaves = [] ∨ d.length < 2 ∨ 32 ≤ shift then .error .ub
    else
      let lo := leaves.getD 0 0
      let hi := leaves.getD (leaves.length - 1) 0
      if index < lo then
        if lo >>> shift = index >>> shift then (addNearest b index d lo).map some else .ok (some (b.put index d))
      else if index > hi then
        if hi >>> shift = index >>> shift then (addNearest b index d hi).map some else .ok (some (b.put index d))
      else
        let (min, max) := bisect leaves index 0 (leaves.length - 1)
        if leaves.getD min 0 >>> shift = index >>> shift then (addNearest b index d (leaves.getD min 0)).map some
        else (addNearest b index d (leaves.getD max 0)).map some

/-- `add_all`, merkle.cpp 299-302. -/
def ByIndex.addAll : ByIndex D → List (Branch D) → Except DErr (Option (ByIndex D))
  | b, [] => .ok (some b)
  | b, p :: ps => do
    match ← b.add p with
    | none => .ok none
    | some b' => b'.addAll ps

/-- `dual_by_index (dual)`, merkle.cpp 287-291. -/
def Dual.byIndex (d : Dual D) : ByIndex D :=
  d.paths.foldl (fun b e => b.put (e.2.index % 2 ^ 32) (some e.1 :: e.2.digests)) []

/-- `map.insert`, which leaves an entry that is there: the data library is not part of
the repository; with the other policy the theorems hold as well, as they say of a path
only that it is one of those given. -/
def insertPath (m : List (D × Path D)) (t : D) (p : Path D) : List (D × Path D) :=
  if m.any (fun e => e.1 = t) then m else m ++ [(t, p)]

/-- `operator dual`, merkle.cpp 293-297; the first of a branch is the leaf, which is always there. -/
def ByIndex.toPaths (b : ByIndex D) : List (D × Path D) :=
  b.foldl (fun m e =>
    match e.2 with
    | some t :: ds => insertPath m t ⟨e.1, ds⟩
    | _ => m) []

/-- `dual::operator +`, merkle.cpp 308-314.  `proofs`, 323-327, puts the proofs of the second in
order, which is the order of its branches since the root is the same.  `dual {}` has no paths
and the zero root. -/
def Dual.add (h : D → D → D) (rank : D → Nat) (zero : D) (a d : Dual D) : Except DErr (Dual D) := do
  if !(← a.valid h rank zero) then .ok d
  else if a.root ≠ d.root then .ok ⟨[], zero⟩
  else
    match ← a.byIndex.addAll (d.branches rank) with
    | none => .ok ⟨[], zero⟩
    | some b => .ok ⟨b.toPaths, a.root⟩

end Verif.Merkle
