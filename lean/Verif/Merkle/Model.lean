import Mathlib.Tactic.Ring

/-
Merkle trees: src/gigamonkey/merkle.cpp and include/gigamonkey/merkle/.

Digests are any type `D`, `hash_concatinated` (proof.hpp 14-16) any function `h`
of two digests; theorems hold for every choice.  The digest `{}` is `zero`.
Reading `first` of an empty list is undefined behaviour: `none`.
-/

namespace Verif.Merkle

variable {D : Type}

/-- `round`, merkle.cpp 15-23. -/
def round (h : D → D → D) : List D → List D
  | [] => []
  | [a] => [h a a]
  | a :: b :: l => h a b :: round h l

theorem round_length (h : D → D → D) : ∀ l : List D, (round h l).length = (l.length + 1) / 2
  | [] => by simp [round]
  | [_] => by simp [round]
  | _ :: _ :: l => by
    have := round_length h l
    simp only [round, List.length_cons, this]
    omega

/-- `root (list<digest>)`, merkle.cpp 142-146. -/
def root (h : D → D → D) (zero : D) : List D → D
  | [] => zero
  | [a] => a
  | a :: b :: l => root h zero (round h (a :: b :: l))
termination_by l => l.length
decreasing_by
  rw [round_length]
  simp only [List.length_cons]
  omega

/-- `root (leaf, digests)`, merkle.cpp 148-154, with `leaf::next`, proof.hpp 84-89:
`none` stands for a digest that is to be duplicated.  The index is a `uint64`;
halving never overflows. -/
def rootFrom (h : D → D → D) : (index : Nat) → (digest : D) → List (Option D) → D
  | _, d, [] => d
  | i, d, o :: ds =>
    rootFrom h (i / 2) (if i % 2 = 1 then h (o.getD d) d else h d (o.getD d)) ds

/-- `proof`, proof.hpp 132-141: leaf digest, index, digests and root. -/
structure Proof (D : Type) where
  leaf : D
  index : Nat
  digests : List (Option D)
  root : D
  deriving DecidableEq, Repr

/-- `proof::valid`, proof.hpp 242-244; digests are taken to be valid. -/
def Proof.valid [DecidableEq D] (h : D → D → D) (p : Proof D) : Bool :=
  p.root = rootFrom h p.index p.leaf p.digests

/-- `data::tree<digest>`. -/
inductive Tree (D : Type)
  | nil
  | node (d : D) (left right : Tree D)
  deriving DecidableEq, Repr

/-- The value at the top; asking an empty tree is undefined. -/
def Tree.top : Tree D → Option D
  | .nil => none
  | .node d _ _ => some d

def Tree.isEmpty : Tree D → Bool
  | .nil => true
  | .node _ _ _ => false

/-- `struct tree`, include/gigamonkey/merkle/tree.hpp 14-35. -/
structure MTree (D : Type) where
  tree : Tree D
  width : Nat
  height : Nat
  deriving DecidableEq, Repr

/-- The inner loops of `tree::make`, merkle.cpp 99-112 and 121-135: the nodes of the
next level over the trees of the last. -/
def joinTrees : (next : List D) → (last : List (Tree D)) → Option (List (Tree D))
  | [], _ => some []
  | n :: next, a :: b :: last => (joinTrees next last).map (.node n a b :: ·)
  | n :: next, [a] => (joinTrees next []).map (.node n a .nil :: ·)
  | _ :: _, [] => none

/-- The loop of `tree::make`, merkle.cpp 114-136, returning trees and height. -/
def growTrees (h : D → D → D) (level : List D) (trees : List (Tree D)) (height : Nat) :
    Option (List (Tree D) × Nat) :=
  if level.length > 1 then
    match joinTrees (round h level) trees with
    | none => none
    | some trees' => growTrees h (round h level) trees' (height + 1)
  else some (trees, height)
termination_by level.length
decreasing_by rw [round_length]; omega

/-- A tree of one digest, `dt<digest256> {d}`. -/
def single (d : D) : Tree D := .node d .nil .nil

/-- `tree::make`, merkle.cpp 83-140.  Line 85 lacks a `return`, so that the empty list
goes on to line 139. -/
def make (h : D → D → D) : List D → Option (MTree D)
  | [a] => some ⟨single a, 1, 1⟩
  | l => do
    let level := round h l
    let trees ← joinTrees level (l.map single)
    let (trees, height) ← growTrees h level trees 2
    let t ← trees.head?
    some ⟨t, l.length % 2 ^ 32, height⟩

/-- `append_proofs`, merkle.cpp 25-35, on a list of proofs that it extends; the
index is a `uint32`.  Going below height 1 or asking an empty tree for its value
is undefined. -/
def appendProofs (r : D) : (height : Nat) → (index : Nat) → List (Option D) → Tree D → Option (List (Proof D))
  | 0, _, _, _ => none
  | _, _, _, .nil => none
  | 1, i, ds, .node d _ _ => some [⟨d, i, ds, r⟩]
  | k + 1, i, ds, .node _ left right =>
    match right with
    | .node dr _ _ => do
      let dl ← left.top
      let a ← appendProofs r k (i * 2 % 2 ^ 32) (some dr :: ds) left
      let b ← appendProofs r k ((i * 2 + 1) % 2 ^ 32) (some dl :: ds) right
      some (a ++ b)
    | .nil => do
      let dl ← left.top
      appendProofs r k (i * 2 % 2 ^ 32) (some dl :: ds) left

/-- `tree::proofs`, merkle.cpp 156-170. -/
def MTree.proofs (t : MTree D) : Option (List (Proof D)) :=
  if t.height = 0 ∨ t.width = 0 then some []
  else
    match t.tree with
    | .nil => none
    | .node d left right =>
      if t.height = 1 then some [⟨d, 0, [], d⟩]
      else do
        let dr ← right.top
        let dl ← left.top
        let a ← appendProofs d (t.height - 1) 0 [some dr] left
        let b ← appendProofs d (t.height - 1) 1 [some dl] right
        some (a ++ b)

/-- The loop of `tree::operator []`, merkle.cpp 185-195.  The test
`(i >> next_height) & 0` never holds. -/
def descend (i max : Nat) : (height : Nat) → List (Option D) → Tree D → Option (List (Option D) × Tree D)
  | 0, ds, t => some (ds, t)
  | _ + 1, _, .nil => none
  | k + 1, ds, .node d left right =>
    descend i max k (some d :: ds) (if i = max then right else left)

/-- `tree::operator []`, merkle.cpp 177-198. -/
def MTree.at (zero : D) (t : MTree D) (i : Nat) : Option (Proof D) :=
  if i ≥ t.width then some ⟨zero, 0, [], zero⟩
  else do
    let (ds, s) ← descend i (t.width - 1) (t.height - 1) [] t.tree
    let d ← s.top
    let r ← t.tree.top
    some ⟨d, i, ds, r⟩

/-! ### The server -/

/-- `class server`, include/gigamonkey/merkle/server.hpp 14-36.  `indices` are the
insertions into the map `Indices`, in their order. -/
structure Server (D : Type) where
  digests : List D
  indices : List (D × Nat)
  width : Nat
  height : Nat
  deriving DecidableEq, Repr

/-- The loop of merkle.cpp 393-397: number of digests in all levels, and height;
the total is a `uint32`. -/
def totals (width total height : Nat) : Nat × Nat :=
  if width > 1 then totals ((width + 1) / 2) ((total + (width + 1) / 2) % 2 ^ 32) (height + 1)
  else (total, height)
termination_by width
decreasing_by omega

/-- The loop of merkle.cpp 403-412; writing past the end is undefined. -/
def fill (h : D → D → D) (total : Nat) (v done : List D) : Option (List D) :=
  if v.isEmpty then none
  else if (done ++ v).length > total then none
  else if (done ++ v).length = total then some (done ++ v)
  else fill h total (round h v) (done ++ v)
termination_by total - done.length
decreasing_by
  cases v with
  | nil => simp at *
  | cons a t => simp only [List.length_append, List.length_cons] at *; omega

/-- `server (leaf_digests)`, merkle.cpp 385-419, for fewer than 2^32 leaves (`Width` is a
`uint32`).  `Digests[-1]` is taken as the last element. -/
def Server.ofLeaves (h : D → D → D) (l : List D) : Option (Server D) :=
  if l.isEmpty then some ⟨[], [], 0, 0⟩
  else
    let (total, height) := totals l.length l.length 1
    (fill h total l []).map fun ds =>
      ⟨ds, (List.range l.length).filterMap fun x => ds[x]?.map fun d => (d, x + 1), l.length, height⟩

/-- `write_at_height`, merkle.cpp 37-47. -/
def Tree.atHeight : Nat → Tree D → Option (List D)
  | _, .nil => none
  | 0, .node d _ _ => some [d]
  | k + 1, .node _ left right =>
    match right with
    | .nil => left.atHeight k
    | .node d a b => do some ((← left.atHeight k) ++ (← Tree.atHeight k (.node d a b)))

/-- `server (const tree &)`, merkle.cpp 329-351: `Indices` stays empty.  There is room for as many digests as a tree of this width
has; to write more of them is undefined, and what is not written stays zero. -/
def Server.ofTree (zero : D) (t : MTree D) : Option (Server D) :=
  if t.width = 0 ∨ t.height = 0 then some ⟨[], [], 0, 0⟩
  else do
    let levels ← ((List.range t.height).reverse).mapM fun k => t.tree.atHeight k
    let total := (totals t.width t.width 1).1
    if levels.flatten.length > total then none
    else some ⟨levels.flatten ++ List.replicate (total - levels.flatten.length) zero, [], t.width, t.height⟩

/-- The loop of `get_server_proof`, merkle.cpp 427-432; reading past the end is
undefined. -/
def serverPath (x : List D) (width cumulative i : Nat) : Option (List (Option D)) :=
  if width > 1 then do
    let d ← x[if i % 2 = 1 then cumulative + i - 1 else if i = width - 1 then cumulative + i else cumulative + i + 1]?
    (serverPath x ((width + 1) / 2) (cumulative + width) (i / 2)).map (some d :: ·)
  else some []
termination_by width
decreasing_by omega

/-- `get_server_proof`, merkle.cpp 422-435. -/
def serverProof (x : List D) (width index : Nat) : Option (Proof D) := do
  let ds ← serverPath x width 0 index
  let d ← x[index]?
  let r ← x.getLast?
  some ⟨d, index, ds, r⟩

/-- `server::root`, server.hpp 38-40. -/
def Server.root (s : Server D) : Option D := s.digests.getLast?

/-- `server::proofs`, merkle.cpp 445-449. -/
def Server.proofs (s : Server D) : Option (List (Proof D)) :=
  (List.range s.width).mapM fun i => serverProof s.digests s.width i

/-- Looking up in `Indices`; 0 when missing.  Whether inserting a key again replaces
its value is a matter of the map: `last` says it does. -/
def lookup [DecidableEq D] (last : Bool) (m : List (D × Nat)) (d : D) : Nat :=
  (((if last then m.reverse else m).find? fun e => e.1 = d).map (·.2)).getD 0

/-- `server::operator []`, merkle.cpp 438-443. -/
def Server.at [DecidableEq D] (last : Bool) (zero : D) (s : Server D) (d : D) : Option (Proof D) :=
  let i := lookup last s.indices d
  if i = 0 then some ⟨zero, 0, [], zero⟩ else serverProof s.digests s.width (i - 1)

end Verif.Merkle
