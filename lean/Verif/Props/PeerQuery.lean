import Verif.Lemmas.PeerQuery
import Verif.Props.PeerNet
namespace Salticidae
open PeerNet Spec.PeerNet

/-! ## C58, C59: the answers, on hosts of either byte order -/

/-- has_peer(pid) is true exactly when the last of `add_peer(pid)` and `del_peer(pid)` was an add_peer, on every host. -/
def C58_statement : Prop := ∀ (e : Endian) g l s, run g init l = some s → ∀ pid,
  hasPeerAnswer e s pid = .ok (if member pid l then 1 else 0)

/-- On big-endian hosts has_peer is false for every peer: the byte at the lowest address is the most significant one of the count. -/
theorem C58_violated_big_endian (g : Cfg) (l : List Act) (s : St) (_ : run g init l = some s) (pid : Nat) :
    hasPeerAnswer .big s pid = .ok 0 := by
  unfold hasPeerAnswer count
  split <;> exact sizeAsBool_big _ (by decide)

/-- has_peer is false for a peer that was added, on a big-endian host. -/
theorem C58_violated : ¬ C58_statement := by
  intro h
  obtain ⟨s, hs⟩ : ∃ s, run ⟨false, id, id, 9⟩ init [.addPeer 1] = some s := ⟨_, rfl⟩
  have h1 := h .big _ _ s hs 1
  rw [C58_violated_big_endian _ _ s hs] at h1
  revert h1; decide

/-- The full statement on little-endian hosts. -/
theorem C58_has_peer_partial (g : Cfg) (l : List Act) (s : St) (h : run g init l = some s) (pid : Nat) :
    hasPeerAnswer .little s pid = .ok (if member pid l then 1 else 0) := by
  rw [hasPeerAnswer, sizeAsBool_little, ← C58_membership g l s h pid]
  simp only [count, hasPeer]
  by_cases hf : (find s pid).isSome = true <;> simp [hf, readAsBool]

example : (run ⟨false, id, id, 9⟩ init [.addPeer 1, .addPeer 2, .delPeer 1]).map
    (fun s => (hasPeerAnswer .little s 1, hasPeerAnswer .little s 2, hasPeerAnswer .big s 2)) = some (.ok 0, .ok 1, .ok 0) := by decide +kernel

/-- On big-endian hosts get_npending is 0 whatever waits. -/
theorem C59_violated_big_endian (s : St) (h : s.pending.length < 2 ^ 56) : npendingAnswer .big s = .ok 0 := sizeAsBool_big _ h

/-- On little-endian hosts it is the lowest byte of the number, `getNpending` in the theorems above. -/
theorem C59_little_partial (s : St) : npendingAnswer .little s = getNpending s := sizeAsBool_little _

example : (run ⟨false, id, id, 9⟩ init [.accept 50 0, .established 0 0 0]).map
    (fun s => (waiting s, npendingAnswer .little s, npendingAnswer .big s)) = some (1, .ok 1, .ok 0) := by decide +kernel

end Salticidae
