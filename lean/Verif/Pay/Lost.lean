import Verif.Pay.Envelope

/-
The nodes that reading an SPV envelope makes with `new`, and what becomes of them: pay/SPV_envelope.cpp 138-172 and 195-229.
Paths in citations are relative to /repo/src/gigamonkey.
-/

namespace Verif.Pay

open Verif Verif.SPV Verif.Net Verif.Text

variable {M : Type}

mutual

/-- The nodes that are in memory for a node that was made with `new`: itself and those its shared pointers lead to. -/
def ENode.nodes : ENode M → Nat
  | .mk _ _ _ inputs => inputs.nodes + 1

/-- The nodes that the shared pointers of a map lead to. -/
def EMap.nodes : EMap M → Nat
  | .nil => 0
  | .null _ m => m.nodes
  | .cons _ n m => n.nodes + m.nodes

end

/-- The nodes that a map of nodes, rather than of pointers to them, has in memory. -/
def EMap.nodesIn : EMap M → Nat
  | .nil => 0
  | .null _ m => m.nodesIn
  | .cons _ n m => (n.nodes - 1) + m.nodesIn

/-- The loop of `read_JSON`, SPV_envelope.cpp 163-169, with the number of nodes that are in memory afterwards; `node` reads a value.  When the
code returns early the map that has been made so far gives back what it has, but the node `nn` is in no map yet. -/
def heldJMap (node : Json → Except PErr (Option (ENode M)) × Nat) : List (List Char × Json) → Except PErr (Option (EMap M)) × Nat
  | [] => (.ok (some .nil), 0)
  | (key, v) :: l =>
    match node v with
    | (.error e, d) => (.error e, d)
    | (.ok none, d) => (.ok none, d)
    | (.ok (some n), d) =>
      match readId (.str key) with
      | none => (.ok none, d)
      | some k =>
        match heldJMap node l with
        | (.error e, d') => (.error e, d - n.nodes + d')
        | (.ok none, d') => (.ok none, d - n.nodes + d')
        | (.ok (some m), d') => (.ok (some (.cons k n m)), d + d')

/-- The loop of the constructor, SPV_envelope.cpp 210-217: the map has a copy of the node, and the node is deleted. -/
def heldJTop (node : Json → Except PErr (Option (ENode M)) × Nat) : List (List Char × Json) → Except PErr (Option (EMap M)) × Nat
  | [] => (.ok (some .nil), 0)
  | (key, v) :: l =>
    match node v with
    | (.error e, d) => (.error e, d)
    | (.ok none, d) => (.ok none, d)
    | (.ok (some n), d) =>
      match readId (.str key) with
      | none => (.ok none, d)
      | some k =>
        match heldJTop node l with
        | (.error e, d') => (.error e, (d - 1) - (n.nodes - 1) + d')
        | (.ok none, d') => (.ok none, (d - 1) - (n.nodes - 1) + d')
        | (.ok (some m), d') => (.ok (some (.cons k n m)), (d - 1) + d')

/-- `read_JSON`, SPV_envelope.cpp 138-172, with the number of nodes that are in memory afterwards. -/
def heldJNode (C : MapiCodec M) : (depth : Nat) → Json → Except PErr (Option (ENode M)) × Nat
  | 0, _ => (.error .unfinished, 0)
  | d + 1, j =>
    if (j.get "proof".toList).isSome = (j.get "inputs".toList).isSome then (.ok none, 0)
    else
      match readHexAt j "rawTx".toList, readMapi C j with
      | some raw, some mapi =>
        match j.get "proof".toList with
        | some _ =>
          match readHexAt j "proof".toList with
          | none => (.ok none, 0)
          | some b =>
            match Tsc.readBinary b with
            | none => (.error .ub, 0)
            | some p => if p.valid then (.ok (some (.mk raw mapi (some p) .nil)), 1) else (.ok none, 0)
        | none =>
          match j.get "inputs".toList with
          | some (.obj l) =>
            match heldJMap (heldJNode C d) l with
            | (.error e, n) => (.error e, n)
            | (.ok none, n) => (.ok none, n)
            | (.ok (some m), n) => (.ok (some (.mk raw mapi none m)), n + 1)
          | _ => (.ok none, 0)
      | _, _ => (.ok none, 0)

/-- `SPV_envelope::SPV_envelope (JSON)`, SPV_envelope.cpp 195-229, with the number of nodes that are in memory afterwards.  The map `ins`
gives back its nodes when the code returns because of the entry "txid". -/
def heldOfJson (C : MapiCodec M) (depth : Nat) (j : Json) : Except PErr (Envelope M) × Nat :=
  match readHexAt j "rawTx".toList, j.get "inputs".toList, readMapi C j with
  | some raw, some (.obj l), some mapi =>
    match heldJTop (heldJNode C depth) l with
    | (.error e, n) => (.error e, n)
    | (.ok none, n) => (.ok ⟨none, [], [], .nil⟩, n)
    | (.ok (some m), n) =>
      match j.get "txid".toList with
      | none => (.ok ⟨none, raw, mapi, m⟩, n)
      | some v =>
        match readId v with
        | none => (.ok ⟨none, [], [], .nil⟩, n - m.nodesIn)
        | some d => (.ok ⟨some d, raw, mapi, m⟩, n)
  | _, _, _ => (.ok ⟨none, [], [], .nil⟩, 0)

end Verif.Pay
