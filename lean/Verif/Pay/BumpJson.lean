import Verif.Pay.Beef
import Verif.Pay.Envelope

/-
The JSON of BUMPs and of BEEF: src/gigamonkey/merkle/BUMP.cpp 83-139 and 184-205, src/gigamonkey/pay/BEEF.cpp 223-258.
-/

namespace Verif.Pay

open Verif Verif.SPV Verif.Net Verif.Text

/-- How writing and reading JSON can fail: an exception, undefined behaviour, or a number that is not an integer, which is
cut to an integer in a way that is not modelled. -/
inductive JErr
  | thrown
  | ub
  | inexact
  deriving DecidableEq, Repr

/-- A number converted to `uint64`: what is not a number throws. -/
def toU64 : Json → Except JErr Nat
  | .int n => .ok (n % 2 ^ 64).toNat
  | .real => .error .inexact
  | _ => .error .thrown

/-- `bool (j[key])` where there may be no such entry: what is not a Boolean throws. -/
def flagOf (j : Json) (key : List Char) : Except JErr Bool :=
  match j.get key with
  | none => .ok false
  | some (.bool b) => .ok b
  | some _ => .error .thrown

/-- `BUMP::node::operator JSON`, BUMP.cpp 83-98. -/
def writeBNode (n : Bumps.Node Digest) : Except JErr Json :=
  if !n.valid then .error .thrown
  else if n.flag = Bumps.duplicate then .ok (.obj [("offset".toList, .int n.offset), ("duplicate".toList, .bool true)])
  else
    match n.digest with
    | none => .error .thrown
    | some d => .ok (.obj ([("offset".toList, .int n.offset), ("hash".toList, .str (writeId d))] ++
        if n.flag = Bumps.client then [("txid".toList, .bool true)] else []))

/-- `BUMP::node::node (JSON)`, BUMP.cpp 100-113.  An entry "hash" that is not there is asked of a constant value, which is
undefined. -/
def readBNode (j : Json) : Except JErr (Bumps.Node Digest) :=
  if !j.isObj then .error .thrown
  else
    match j.get "offset".toList with
    | none => .error .thrown
    | some o =>
      (toU64 o).bind fun offset =>
        (flagOf j "duplicate".toList).bind fun dup =>
          if dup then .ok ⟨offset, Bumps.duplicate, none⟩
          else
            match j.get "hash".toList with
            | none => .error .ub
            | some (.str s) =>
              (flagOf j "txid".toList).map fun c => ⟨offset, if c then Bumps.client else Bumps.intermediate, some (readReverseHex s)⟩
            | some _ => .error .thrown

def writeBNodes : List (Bumps.Node Digest) → Except JErr (List Json)
  | [] => .ok []
  | n :: l => (writeBNode n).bind fun j => (writeBNodes l).map fun js => j :: js

def writeLevels : List (List (Bumps.Node Digest)) → Except JErr (List Json)
  | [] => .ok []
  | l :: ls => (writeBNodes l).bind fun j => (writeLevels ls).map fun js => .arr j :: js

/-- `BUMP::operator JSON`, BUMP.cpp 116-126 and 184-193. -/
def bumpToJson (b : Bumps.Bump Digest) : Except JErr Json :=
  (writeLevels b.path).map fun l => .obj [("blockHeight".toList, .int b.height), ("path".toList, .arr l)]

/-- What a loop over a JSON value goes through: the elements, the values of an object, nothing for null, and what is neither is
taken as if it were in an array by itself. -/
def Json.items : Json → List Json
  | .arr l => l
  | .obj l => l.map (·.2)
  | .null => []
  | j => [j]

/-- A level, BUMP.cpp 133: from the last to the first, put in order. -/
def readLevel : List Json → Except JErr (List (Bumps.Node Digest))
  | [] => .ok []
  | j :: l => (readLevel l).bind fun level => (readBNode j).map fun n => Bumps.insert n level

def readLevels : List Json → Except JErr (List (List (Bumps.Node Digest)))
  | [] => .ok []
  | k :: ks => (readLevel (Json.items k)).bind fun l => (readLevels ks).map fun ls => l :: ls

/-- `read_paths`, BUMP.cpp 128-138. -/
def readPaths : Json → Except JErr (List (List (Bumps.Node Digest)))
  | .arr [] => .error .thrown
  | .arr l => readLevels l
  | _ => .error .thrown

/-- `BUMP::BUMP (JSON)`, BUMP.cpp 197-205. -/
def bumpOfJson (j : Json) : Except JErr (Bumps.Bump Digest) :=
  match j.get "path".toList, j.get "blockHeight".toList with
  | some p, some (.int h) =>
    if h < 0 then .error .thrown
    else (readPaths p).map fun path => ⟨(h % 2 ^ 64).toNat, path⟩
  | some p, some .real => (readPaths p).bind fun _ => .error .inexact
  | _, _ => .error .thrown

/-! ### BEEF -/

/-- The JSON of an input, BEEF.cpp 233-238; `encoding::hexidecimal::write` of a digest is "0x" and its digits. -/
def inputJson (i : Input) : Json :=
  .obj [("prevout".toList, .obj [("txid".toList, .str ("0x".toList ++ writeId i.reference.digest)),
      ("index".toList, .int i.reference.index.toNat)]),
    ("script".toList, .str (hexWrite i.script)), ("sequence".toList, .int i.sequence.toNat)]

/-- The JSON of an output, BEEF.cpp 242-244: the value is taken as a `uint64`. -/
def outputJson (o : Output) : Json :=
  .obj [("value".toList, .int o.value.toNat), ("script".toList, .str (hexWrite o.script))]

/-- The JSON of a transaction, BEEF.cpp 246-254. -/
def btxJson (t : BTx) : Json :=
  .obj ([("version".toList, .int t.tx.version.toNat), ("inputs".toList, .arr (t.tx.inputs.map inputJson)),
    ("outputs".toList, .arr (t.tx.outputs.map outputJson)), ("lockTime".toList, .int t.tx.lockTime.toNat)] ++
    match t.bump with
    | some k => [("BUMPIndex".toList, .int k)]
    | none => [])

def writeBumps : List (Bumps.Bump Digest) → Except JErr (List Json)
  | [] => .ok []
  | b :: l => (bumpToJson b).bind fun j => (writeBumps l).map fun js => j :: js

/-- `BEEF::operator JSON`, BEEF.cpp 223-258. -/
def Beef.toJson (b : Beef) : Except JErr Json :=
  (writeBumps b.bumps).map fun l => .obj [("version".toList, .int b.version.toNat), ("BUMPs".toList, .arr l),
    ("Transactions".toList, .arr (b.txs.map btxJson))]

end Verif.Pay
