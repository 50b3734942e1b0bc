import Verif.Text.Hex

/-
JSON values, as those of the library that the data library uses.  An object is a list of keys and values, and no key is in it
twice.  Numbers that are not integers are not told apart.
-/

namespace Verif.Net

inductive Json
  | null
  | bool (b : Bool)
  | int (n : Int)
  | real
  | str (s : List Char)
  | arr (l : List Json)
  | obj (l : List (List Char × Json))

/-- `j[key]`, where there is such an entry; `j.contains (key)` says if there is one. -/
def Json.get (j : Json) (key : List Char) : Option Json :=
  match j with
  | .obj l => (l.find? fun e => e.1 = key).map (·.2)
  | _ => none

def Json.str? : Json → Option (List Char)
  | .str s => some s
  | _ => none

def Json.int? : Json → Option Int
  | .int n => some n
  | _ => none

def Json.arr? : Json → Option (List Json)
  | .arr l => some l
  | _ => none

def Json.isObj : Json → Bool
  | .obj _ => true
  | _ => false

end Verif.Net
