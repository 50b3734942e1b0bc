import Verif.Sig.Model

/-
The digests that an incomplete transaction keeps: include/gigamonkey/incomplete.hpp 54-78 and
include/gigamonkey/sighash.hpp 157-192, with the memory they are in.
Paths in citations are relative to /repo/src/gigamonkey.
-/

namespace Verif.Sig

open Verif

/-- The three digests that are kept, incomplete.hpp 55-57. -/
inductive Part
  | prevouts
  | sequences
  | outputs
  deriving DecidableEq, Repr

/-- What is hashed: `hash_prevouts`, `hash_sequence` and `hash_outputs`, sighash.hpp 157-173. -/
def Part.bytes (t : ITx) : Part → Bytes
  | .prevouts => Sig.prevouts t
  | .sequences => Sig.sequences t
  | .outputs => outputBytes t

/-- The memory that digests are in: what is at an address, if it is in use, and the next address that `new` will give.
No address is given twice; what a program does that uses an address after it has been given back is undefined in any case. -/
structure Heap where
  cells : Nat → Option (BitVec 256)
  next : Nat

/-- `new digest256 {d}`. -/
def Heap.new (h : Heap) (d : BitVec 256) : Heap := ⟨fun p => if p = h.next then some d else h.cells p, h.next + 1⟩

/-- `delete`: nothing for a null pointer, and undefined (`none`) for an address that is not in use. -/
def Heap.delete (h : Heap) : Option Nat → Option Heap
  | none => some h
  | some p => if h.cells p = none then none else some ⟨fun q => if q = p then none else h.cells q, h.next⟩

/-- `incomplete::transaction::cached`, incomplete.hpp 59-74: three pointers, null to begin with. -/
abbrev Cache := Part → Option Nat

/-- `~cached`, incomplete.hpp 60-64. -/
def Cache.destroy (c : Cache) (h : Heap) : Option Heap :=
  (h.delete (c .prevouts)).bind fun h => (h.delete (c .sequences)).bind fun h => h.delete (c .outputs)

/-- An object of the type `incomplete::transaction`, incomplete.hpp 31-78. -/
structure Obj where
  tx : ITx
  cache : Cache

/-- What a program can do with such objects: make one, copy one, ask one for a digest and destroy one.  Objects are numbered as they
come into being.  There is no assignment since the members are constant. -/
inductive Act
  | make (t : ITx)
  | copy (k : Nat)
  | ask (p : Part) (k : Nat)
  | destroy (k : Nat)
  deriving DecidableEq

/-- The memory and the objects; `none` for one that has been destroyed. -/
structure World where
  heap : Heap
  objs : List (Option Obj)

def World.start : World := ⟨⟨fun _ => none, 0⟩, []⟩

/-- `hash_prevouts`, `hash_sequence` and `hash_outputs` of an object, sighash.hpp 179-192: the digest is computed if the pointer is
null, and what it points to is given. -/
def World.ask (H : Bytes → BitVec 256) (w : World) (p : Part) (k : Nat) (o : Obj) : Option (World × List (BitVec 256)) :=
  match o.cache p with
  | none => some (⟨w.heap.new (H (p.bytes o.tx)), w.objs.set k (some ⟨o.tx, fun p' => if p' = p then some w.heap.next else o.cache p'⟩)⟩,
      [H (p.bytes o.tx)])
  | some q => (w.heap.cells q).map fun d => (w, [d])

/-- The object with a number, if there is one and it has not been destroyed. -/
def World.obj (w : World) (k : Nat) : Option Obj := (w.objs[k]?).join

/-- One act, with the digests that are given; `none` is undefined behaviour.  The constructor is incomplete.hpp 37-47; the copy constructor
is the one that the compiler supplies, which copies the pointers. -/
def World.step (H : Bytes → BitVec 256) (w : World) : Act → Option (World × List (BitVec 256))
  | .make t => some (⟨w.heap, w.objs ++ [some ⟨t, fun _ => none⟩]⟩, [])
  | .copy k => (w.obj k).map fun o => (⟨w.heap, w.objs ++ [some o]⟩, [])
  | .ask p k => (w.obj k).bind fun o => w.ask H p k o
  | .destroy k => (w.obj k).bind fun o => (o.cache.destroy w.heap).map fun h => (⟨h, w.objs.set k none⟩, [])

/-- A program. -/
def World.run (H : Bytes → BitVec 256) : World → List Act → Option (World × List (BitVec 256))
  | w, [] => some (w, [])
  | w, a :: as => (w.step H a).bind fun r => (World.run H r.1 as).map fun s => (s.1, r.2 ++ s.2)

end Verif.Sig
