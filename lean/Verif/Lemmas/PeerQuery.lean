import Verif.Model.PeerQuery
namespace Salticidae
open PeerNet

theorem sizeAsBool_little (n : Nat) : sizeAsBool .little n = readAsBool n := by
  have h : n % 18446744073709551616 % 256 = n % 256 := by omega
  simp [sizeAsBool, memEnc, Spec.leEnc, readAsBool, h]

theorem sizeAsBool_big (n : Nat) (hn : n < 2 ^ 56) : sizeAsBool .big n = .ok 0 := by
  have h1 : n % 18446744073709551616 = n := by omega
  have h2 : n / 256 / 256 / 256 / 256 / 256 / 256 / 256 = 0 := by omega
  simp [sizeAsBool, memEnc, Spec.leEnc, h1, h2]

end Salticidae
