import Verif.SPV.Generate

/-
What the database is asked while a proof is made: src/gigamonkey/SPV.cpp 210-259, as in Verif/SPV/Generate.lean, with each
call of `database::transaction` written down.
-/

namespace Verif.SPV

open Verif Verif.Chain

/-- A result together with the transactions the database was asked for, in order. -/
abbrev Asked (α : Type) := List Digest × Except GErr α

/-- One step after another: nothing is asked after a failure. -/
def Asked.bind {α β : Type} (x : Asked α) (f : α → Asked β) : Asked β :=
  match x.2 with
  | .error e => (x.1, .error e)
  | .ok a => (x.1 ++ (f a).1, (f a).2)

/-- The loop over inputs, SPV.cpp 225-229: `generate_proof_node` is called for every input, also for one that spends
from the same transaction as an input before. -/
def askInputs (node : Digest → Asked (Option Node)) : List Input → NodeMap → Asked (Option NodeMap)
  | [], m => ([], .ok (some m))
  | i :: is, m =>
    (node i.reference.digest).bind fun o =>
      match o with
      | none => ([], .ok none)
      | some n => askInputs node is (m.put i.reference.digest n)

/-- `generate_proof_node`, SPV.cpp 212-232: the database is asked once (214), and again (219) if the transaction is
not confirmed. -/
def askNode (db : Digest → Found) : (depth : Nat) → Digest → Asked (Option Node)
  | 0, _ => ([], .error .never)
  | n + 1, d =>
    match (db d).transaction with
    | none => ([d], .ok none)
    | some t =>
      match (db d).confirmed, (db d).confirmation with
      | true, some c => ([d], .ok (some (.confirmed t c)))
      | _, _ =>
        let r := askInputs (askNode db n) t.inputs .nil
        (d :: d :: r.1, r.2.map fun o => o.map fun m => .derived t m)

/-- The loop over the inputs of a payment, SPV.cpp 251-255. -/
def askMissing (node : Digest → Asked (Option Node)) : List Input → NodeMap → Asked (Option NodeMap)
  | [], m => ([], .ok (some m))
  | i :: is, m =>
    if m.has i.reference.digest then askMissing node is m
    else
      (node i.reference.digest).bind fun o =>
        match o with
        | none => ([], .ok none)
        | some n => askMissing node is (m.put i.reference.digest n)

/-- The loop over the payment, SPV.cpp 240-256: the database is asked for each transaction of the payment (246). -/
def askPayment (H : Bytes → Digest) (db : Digest → Found) (depth : Nat) :
    List Tx → List Tx → NodeMap → Asked (Option (List Tx × NodeMap))
  | [], payment, m => ([], .ok (some (payment, m)))
  | t :: ts, payment, m =>
    if (db (txId H t)).confirmed then ([txId H t], .ok none)
    else
      let r := (askMissing (askNode db depth) t.inputs m).bind fun o =>
        match o with
        | none => ([], .ok none)
        | some m' => askPayment H db depth ts (t :: payment) m'
      (txId H t :: r.1, r.2)

/-- `generate_proof`, SPV.cpp 237-259. -/
def askProof (H : Bytes → Digest) (db : Digest → Found) (depth : Nat) (payment : List Tx) :
    Asked (Option (List Tx × NodeMap)) := askPayment H db depth payment [] .nil

end Verif.SPV
