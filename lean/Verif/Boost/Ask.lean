import Verif.Boost.Model

/-
What can be asked of the bytes of a Boost script: the static accessors of boost.hpp 461-495 and
666-710.  Each reads the whole script and gives one member of what was read, so each throws if the
reading does (`none` here).  `output_script::magic_number` (line 103) is declared and defined nowhere,
so a program that uses it does not link; it is not modelled.
-/

namespace Verif.Boost

open Verif Script Work

/-- The number of a `Boost::type` when it is converted, boost.hpp 15. -/
def Kind.number : Kind → BitVec 32
  | .invalid => 0
  | .bounty => 1
  | .contract => 2

/-- `output_script::type`, boost.hpp 462-464. -/
def Output.askType (x : Bytes) : Option Kind := (Output.read x).map (·.kind)

/-- `output_script::valid`, boost.hpp 466-468. -/
def Output.askValid (x : Bytes) : Option Bool := (Output.read x).map (·.valid)

/-- `output_script::version`, boost.hpp 470-472: what is given is the type. -/
def Output.askVersion (x : Bytes) : Option (BitVec 32) := (Output.read x).map (·.kind.number)

/-- `output_script::content`, boost.hpp 474-476. -/
def Output.askContent (x : Bytes) : Option (BitVec 256) := (Output.read x).map (·.content)

/-- `output_script::target`, boost.hpp 478-480. -/
def Output.askTarget (x : Bytes) : Option Compact := (Output.read x).map (·.target)

/-- `output_script::tag`, boost.hpp 482-484. -/
def Output.askTag (x : Bytes) : Option Bytes := (Output.read x).map (·.tag)

/-- `output_script::user_nonce`, boost.hpp 486-488. -/
def Output.askUserNonce (x : Bytes) : Option (BitVec 32) := (Output.read x).map (·.userNonce)

/-- `output_script::additional_data`, boost.hpp 490-492. -/
def Output.askData (x : Bytes) : Option Bytes := (Output.read x).map (·.data)

/-- `output_script::miner_pubkey_hash`, boost.hpp 494-496. -/
def Output.askHash (x : Bytes) : Option (BitVec 160) := (Output.read x).map (·.hash)

/-- `input_script::type`, boost.hpp 668-670. -/
def Input.askType (x : Bytes) : Option Kind := (Input.read x).map (·.kind)

/-- `input_script::valid`, boost.hpp 672-674. -/
def Input.askValid (x : Bytes) : Option Bool := (Input.read x).map (·.valid)

/-- `input_script::signature`, boost.hpp 676-678. -/
def Input.askSignature (x : Bytes) : Option Bytes := (Input.read x).map (·.signature)

/-- `input_script::pubkey`, boost.hpp 680-682. -/
def Input.askPubkey (x : Bytes) : Option Bytes := (Input.read x).map (·.pubkey)

/-- `input_script::timestamp`, boost.hpp 684-686. -/
def Input.askTimestamp (x : Bytes) : Option (BitVec 32) := (Input.read x).map (·.timestamp)

/-- `input_script::nonce`, boost.hpp 688-690. -/
def Input.askNonce (x : Bytes) : Option (BitVec 32) := (Input.read x).map (·.nonce)

/-- `input_script::miner_pubkey_hash`, boost.hpp 692-694. -/
def Input.askHash (x : Bytes) : Option (BitVec 160) := (Input.read x).map (·.hash)

/-- `input_script::solution (script)`, boost.hpp 704-706. -/
def Input.askSolution (x : Bytes) : Option Solution := (Input.read x).map (·.solution)

end Verif.Boost
