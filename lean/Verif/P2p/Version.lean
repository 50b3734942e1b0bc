import Verif.Serial.Model

/-
What a node says of itself to another: include/gigamonkey/p2p/net_address.hpp, include/gigamonkey/p2p/version.hpp, p2p/version.cpp and
include/gigamonkey/p2p/command.hpp.  Nothing in the library reads these messages; the other headers of p2p are included by none of the
files that are compiled.
-/

namespace Verif.P2p

/-- `endpoint`, net_address.hpp 20-22; the address is kept as its 16 bytes, here the number of which they are the little-endian form. -/
structure Endpoint where
  ip : BitVec 128
  port : BitVec 16
  deriving DecidableEq

/-- `endpoint (const IP::address &, uint16)`, net_address.hpp 27-34.  An address is given by its bytes, 4 or 16, or is not valid (`none`).  That
there are more is not modelled. -/
def Endpoint.ofAddress (address : Option Bytes) (port : BitVec 16) : Endpoint :=
  match address with
  | none => ⟨0, 0⟩
  | some b => ⟨BitVec.ofNat 128 (leNat (List.replicate (16 - b.length) 0 ++ b)), port⟩

/-- net_address.hpp 79-81. -/
def Endpoint.write (e : Endpoint) : Bytes := wfix 16 e.ip ++ wfix 2 e.port

/-- `net_address`, net_address.hpp 46-48. -/
structure NetAddress where
  service : BitVec 64
  endpoint : Endpoint
  deriving DecidableEq

/-- net_address.hpp 83-85. -/
def NetAddress.write (a : NetAddress) : Bytes := wfix 8 a.service ++ a.endpoint.write

/-- net_address.hpp 53-55. -/
def NetAddress.size : Nat := 26

/-- `version_message<70001>` with what it has from `version_message<106>` and `version_message<0>`, version.hpp 31-37, 46-52 and 66-67. -/
structure Version where
  version : BitVec 32
  services : BitVec 64
  timestamp : BitVec 32
  receive : NetAddress
  source : NetAddress
  nonce : BitVec 32
  agent : Bytes
  height : BitVec 32
  relay : UInt8
  deriving DecidableEq

/-- `operator << (writer &, const version_message<0> &)`, version.hpp 85-87. -/
def Version.write0 (h : Version) : Bytes := wfix 4 h.version ++ wfix 8 h.services ++ wfix 4 h.timestamp ++ h.receive.write

/-- `operator << (writer &, const version_message<106> &)`, version.cpp 9-13. -/
def Version.write106 (h : Version) : Bytes :=
  h.write0 ++ (if h.version.toInt ≤ 105 then [] else h.source.write ++ wfix 4 h.nonce ++ varStringWrite h.agent ++ wfix 4 h.height)

/-- `operator << (writer &, const version_message<70001> &)`, version.cpp 15-19. -/
def Version.write (h : Version) : Bytes := h.write106 ++ (if h.version.toInt ≤ 70000 then [] else [h.relay])

/-- `serialized_size` of the three, version.hpp 41-43, 61-63 and 80-82. -/
def Version.size0 (_ : Version) : Nat := 46
def Version.size106 (h : Version) : Nat := 84 + varStringSize h.agent.length
def Version.size (h : Version) : Nat := 85 + varStringSize h.agent.length

/-- `command (const char *)`, command.hpp 14-23, of the characters before the zero; `none` is a write outside of the array. -/
def commandOf (name : Bytes) : Option Bytes := if name.length ≤ 12 then some (name ++ List.replicate (12 - name.length) 0) else none

end Verif.P2p
