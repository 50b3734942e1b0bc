import Verif.Chain.Valid

/-!
Telling a header or transaction its hash (src/gigamonkey/include/gigamonkey/timechain.hpp, `chain_loader`).
-/

namespace Verif.Chain

/-- `chain_loader::set_hash`, timechain.hpp 320-322 for headers and 324-326 for transactions: the hash told
is kept if one *was* kept (`if (h.Hash != nullptr)`), and is otherwise dropped. -/
def Object.setHash {α : Type} (o : Object α) (x : BitVec 256) : Object α :=
  if o.hash.isSome then ⟨o.fields, some x⟩ else o

/-- What can be done with a header or transaction to which a loader has access too. -/
inductive LoaderUse (α : Type)
  /-- Any of the uses of timechain.hpp 446-454 and the assignments. -/
  | use (u : Use α)
  /-- `chain_loader::set_hash`, timechain.hpp 320-326. -/
  | tell (x : BitVec 256)

/-- Everything reported in the course of such a history, each with the fields at that time; as
`reports`, for timechain.hpp 320-326 and 446-454. -/
def loaderReports {α : Type} (hash : α → BitVec 256) : Object α → List (LoaderUse α) → List (BitVec 256 × α)
  | _, [] => []
  | o, .tell x :: us => loaderReports hash (o.setHash x) us
  | o, .use u :: us =>
    match o.use hash u with
    | (o', none) => loaderReports hash o' us
    | (o', some h) => (h, o.fields) :: loaderReports hash o' us

end Verif.Chain
