import Verif.Model.NetAddr
/-
Model of the values of addresses in the C interface, src/netaddr.cpp:13-46 (who owns the objects is in Model/CApi).
Simplified: allocation does not fail; `none`: nullptr, with the error set.
-/
namespace Salticidae
namespace CAddr

/-- `netaddr_new_from_ip_port`, netaddr.cpp:13-18, with `NetAddr(uint32_t, uint16_t)`, netaddr.h:47: the members are set as they are given. -/
def fromIpPort (ip : BitVec (8 * 4)) (port : BitVec (8 * 2)) : NetAddr := ⟨ip, port⟩

/-- `netaddr_new_from_sip_port`, netaddr.cpp:20-25. -/
def fromSipPort (e : Endian) (resolve : List Char → Option (List Byte)) (host : List Char) (port : BitVec (8 * 2)) : Option NetAddr :=
  NetAddr.ofIpPort e resolve host port

/-- `netaddr_new_from_sipport`, netaddr.cpp:27-32. -/
def fromSipport (e : Endian) (resolve : List Char → Option (List Byte)) (t : List Char) : Option NetAddr :=
  NetAddr.ofText e resolve t

/-- `netaddr_get_ip`, netaddr.cpp:44. -/
def getIp (a : NetAddr) : BitVec (8 * 4) := a.ip

/-- `netaddr_get_port`, netaddr.cpp:46. -/
def getPort (a : NetAddr) : BitVec (8 * 2) := a.port

end CAddr
end Salticidae
