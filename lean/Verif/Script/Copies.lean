import Verif.Script.Interp

/-
What becomes of an interpreter that is copied: what the copy shares with the original (script/interpreter.hpp 12-28, script/machine.hpp
15-43, script/counter.hpp 13-21).
Paths in citations are relative to /repo/src/gigamonkey/include/gigamonkey unless they end in .cpp.
-/

namespace Verif.Script

open Verif

/-- `two_stack`, script/stack.hpp 39-92: the two stacks and the memory that `limited_two_stack<true>` counts. -/
structure Stacks where
  stack : List Bytes
  alt : List Bytes
  mem : Int
  deriving DecidableEq, Repr

/-- The members of an `interpreter` other than the configuration, the document and the script.  `Stack` is a shared pointer (machine.hpp 29),
here the number of the stacks it points to.  The slices of the program counter (counter.hpp 15-16) are into the bytes that the member
`Script` of some interpreter has, here the number of that interpreter. -/
structure Members where
  halt : Bool
  result : Result
  exec : List Bool
  els : List Bool
  opCount : Nat
  stacks : Nat
  counter : Counter
  home : Nat

/-- An object of the type `interpreter`, with what it was constructed for. -/
structure IObj where
  env : Env
  members : Members

/-- All stacks that have been made and all objects; `none` for one that has been destroyed.  Objects are numbered as they come into being. -/
structure IWorld where
  stacks : List Stacks
  objs : List (Option IObj)

/-- What a program can do with interpreters: make one, copy one, call `step`, look at one and destroy one.  (`run` is `step` until it has
halted: C74.) -/
inductive IAct
  | make (x : Env) (ux lx : Bytes)
  | copy (k : Nat)
  | step (k : Nat)
  | look (k : Nat)
  | destroy (k : Nat)

/-- What one sees: `Machine.Halt`, `Machine.Result` and `*Machine.Stack`. -/
structure IView where
  halt : Bool
  result : Result
  stack : List Bytes
  alt : List Bytes
  deriving DecidableEq, Repr

/-- The interpreter that the members are, given the stacks. -/
def Members.interp (o : Members) (s : Stacks) : Interp :=
  ⟨⟨s.stack, s.alt, o.exec, o.els, o.opCount, s.mem⟩, o.halt, o.result, o.counter⟩

/-- The members of an interpreter, and its stacks. -/
def Members.of (i : Interp) (stacks home : Nat) : Members :=
  ⟨i.halt, i.result, i.machine.exec, i.machine.els, i.machine.opCount, stacks, i.counter, home⟩

def Stacks.of (i : Interp) : Stacks := ⟨i.machine.stack, i.machine.alt, i.machine.mem⟩

/-- The object with a number, if there is one and it has not been destroyed. -/
def IWorld.obj (w : IWorld) (k : Nat) : Option IObj := (w.objs[k]?).join

/-- `interpreter::step`, interpreter.cpp 105-112.  It reads the script through the slice `Next` unless it has halted or `Next` is empty;
if the interpreter that has the bytes is destroyed this is undefined. -/
def IWorld.stepObj (w : IWorld) (k : Nat) (o : IObj) : Option IWorld :=
  if o.members.halt then some w
  else if o.members.counter.next ≠ [] ∧ w.obj o.members.home = none then none
  else
    (w.stacks[o.members.stacks]?).bind fun s => (Interp.step o.env (o.members.interp s)).map fun i =>
      ⟨w.stacks.set o.members.stacks (.of i), w.objs.set k (some ⟨o.env, .of i o.members.stacks o.members.home⟩)⟩

/-- One act, with what is seen; `none` is undefined behaviour, and so is to touch an object that is not there.  A constructor
(interpreter.cpp 36-44) that throws makes no object.  The copy constructor is the one that the compiler supplies: it copies the shared
pointer and the slices.  The stacks go when nobody has them any more, which nobody sees. -/
def IWorld.step (w : IWorld) : IAct → Option (IWorld × List IView)
  | .make x ux lx =>
    match setup x.cfg ux lx with
    | .error _ => some (⟨w.stacks, w.objs ++ [none]⟩, [])
    | .ok none => none
    | .ok (some i) => some (⟨w.stacks ++ [.of i], w.objs ++ [some ⟨x, .of i w.stacks.length w.objs.length⟩]⟩, [])
  | .copy k => (w.obj k).map fun o => (⟨w.stacks, w.objs ++ [some o]⟩, [])
  | .step k => (w.obj k).bind fun o => (w.stepObj k o).map fun w' => (w', [])
  | .look k => (w.obj k).bind fun o => (w.stacks[o.members.stacks]?).map fun s =>
      (w, [⟨o.members.halt, o.members.result, s.stack, s.alt⟩])
  | .destroy k => (w.obj k).map fun _ => (⟨w.stacks, w.objs.set k none⟩, [])

/-- A program. -/
def IWorld.run : IWorld → List IAct → Option (IWorld × List IView)
  | w, [] => some (w, [])
  | w, a :: as => (w.step a).bind fun r => (IWorld.run r.1 as).map fun s => (s.1, r.2 ++ s.2)

end Verif.Script
