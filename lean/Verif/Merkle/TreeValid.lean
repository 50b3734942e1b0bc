import Verif.Merkle.Model

/-
When a Merkle tree is valid, and the tree that a server stands for.
-/

namespace Verif.Merkle

variable {D : Type}

/-- `check_tree`, merkle.cpp 58-81.  `ok` is `digest256::valid`; to ask an empty tree for its branches is undefined, and so is to
shift by 32 or more; widths are `uint32`. -/
def checkTree [DecidableEq D] (h : D → D → D) (ok : D → Bool) : Tree D → (width : Nat) → (height : Nat) → Option Bool
  | _, _, 0 => some false
  | .nil, _, 1 => some false
  | .node d l r, w, 1 => some (decide (w = 1) && l.isEmpty && r.isEmpty && ok d)
  | .nil, _, _ + 2 => none
  | .node d l r, w, k + 2 =>
    match l.top with
    | none => some false
    | some dl =>
      match r.top with
      | none => do
        if ← checkTree h ok l w (k + 1) then some (decide (d = h dl dl)) else some false
      | some dr =>
        if 32 ≤ k then none
        else do
          if ← checkTree h ok r ((w + 2 ^ 32 - 2 ^ k) % 2 ^ 32) (k + 1) then
            if ← checkTree h ok l (2 ^ k) (k + 1) then some (decide (d = h dl dr)) else some false
          else some false

/-- `tree::valid`, merkle.cpp 172-175. -/
def MTree.valid [DecidableEq D] (h : D → D → D) (ok : D → Bool) (t : MTree D) : Option Bool :=
  if t.height = 0 ∨ t.width = 0 then some false else checkTree h ok t.tree t.width t.height

/-- The inner loop of `server::operator tree` and what follows it, merkle.cpp 364-376: the next level of trees, and the digests that
are left; to read past the end is undefined. -/
def pairTrees : List D → List (Tree D) → Option (List (Tree D) × List D)
  | b, [] => some ([], b)
  | d :: b, [x] => some ([.node d x .nil], b)
  | d :: b, x :: y :: ts => (pairTrees b ts).map fun p => (.node d x y :: p.1, p.2)
  | [], _ :: _ => none

theorem pairTrees_length : ∀ (ts : List (Tree D)) (b : List D) (p : List (Tree D) × List D), pairTrees b ts = some p →
    p.1.length = (ts.length + 1) / 2
  | [], b, p, e => by simp only [pairTrees, Option.some.injEq] at e; subst e; simp
  | [x], [], p, e => by simp [pairTrees] at e
  | [x], d :: b, p, e => by simp only [pairTrees, Option.some.injEq] at e; subst e; simp
  | x :: y :: ts, [], p, e => by simp [pairTrees] at e
  | x :: y :: ts, d :: b, p, e => by
    simp only [pairTrees, Option.map_eq_some_iff] at e
    obtain ⟨q, hq, rfl⟩ := e
    have := pairTrees_length ts b q hq
    simp only [List.length_cons, this]
    omega

/-- The outer loop of `server::operator tree`, merkle.cpp 363-379, and the first of the trees that are left. -/
def rebuild (b : List D) (ts : List (Tree D)) : Option (Tree D) :=
  if ts.length > 1 then
    match _hp : pairTrees b ts with
    | none => none
    | some p => rebuild p.2 p.1
  else ts.head?
termination_by ts.length
decreasing_by rw [pairTrees_length ts b p _hp]; omega

/-- `server::operator tree`, merkle.cpp 353-383; to read past the end of the digests is undefined. -/
def Server.toTree (s : Server D) : Option (MTree D) :=
  if s.width = 0 ∨ s.height = 0 then some ⟨.nil, 0, 0⟩
  else if s.digests.length < s.width then none
  else (rebuild (s.digests.drop s.width) ((s.digests.take s.width).map single)).map fun t => ⟨t, s.width, s.height⟩

end Verif.Merkle
