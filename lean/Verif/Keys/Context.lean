/-
The two contexts of the elliptic curve library that everything in secp256k1.cpp uses, and which are made when they are first used:
secp256k1.cpp 189-205.

`Verification` and `Signing` are global and are used by any thread that makes, checks or adds keys and signatures.  Nothing is locked and nothing is
atomic.  The model is of one of the two and runs the steps of any number of threads in any order.  What two accesses at once mean in C++ beyond
that order, which is that behaviour is undefined, is said by `Conflict` in ContextProps.lean.
-/

namespace Verif.Keys.Lazily

/-- Where a thread stands in `operator ()`, lines 197-200: outside; past the comparison of line 198, which was true; past
`secp256k1_context_create`, with what it gave; before line 199. -/
inductive Place
  | outside
  | missing
  | made (k : Nat)
  | present
  deriving DecidableEq

/-- Line 190 and what the threads are doing.  Contexts are numbered in the order in which they are made. -/
structure State where
  context : Option Nat := none
  count : Nat := 0
  place : Nat → Place := fun _ => .outside

/-- What a step is seen to do: it looks at `Context`, makes a context, writes `Context`, or answers with what is there. -/
inductive Act
  | looked
  | created (k : Nat)
  | stored (k : Nat)
  | answered (c : Option Nat)
  deriving DecidableEq

/-- The next step of thread `t`, lines 198 and 199. -/
def State.step (s : State) (t : Nat) : State × Act :=
  let go (p : Place) : Nat → Place := fun u => if u = t then p else s.place u
  match s.place t with
  | .outside =>
    match s.context with
    | none => ({ s with place := go .missing }, .looked)
    | some _ => ({ s with place := go .present }, .looked)
  | .missing => ({ s with count := s.count + 1, place := go (.made s.count) }, .created s.count)
  | .made k => ({ s with context := some k, place := go .present }, .stored k)
  | .present => ({ s with place := go .outside }, .answered s.context)

/-- The steps of the threads in the order given, and what each does. -/
def State.run (s : State) : List Nat → State × List (Nat × Act)
  | [] => (s, [])
  | t :: l => (((s.step t).1.run l).1, (t, (s.step t).2) :: ((s.step t).1.run l).2)

/-- Lines 202-204, the destructor: which of the contexts that were made are destroyed. -/
def State.destroyed (s : State) : List Nat := s.context.toList

end Verif.Keys.Lazily
