import Verif.Lemmas.PeerPend
import Verif.Spec.PeerNet
/-!
C58, C59, C62, C63: membership, pending connections, multicast, unknown peers.
-/
namespace Salticidae
open PeerNet Spec.PeerNet

/-! ### C58 -/

theorem member_snoc (pid : Nat) (l : List Act) (a : Act) : member pid (l ++ [a]) = (match a with
    | .addPeer q => if q = pid then true else member pid l
    | .delPeer q => if q = pid then false else member pid l
    | _ => member pid l) := by
  unfold member
  rw [List.foldl_append]
  rfl

/-- has_peer(pid) is true exactly when the last of `add_peer(pid)` and `del_peer(pid)` was an add_peer. -/
theorem C58_membership (g : Cfg) (l : List Act) (s : St) (h : run g init l = some s) (pid : Nat) :
    hasPeer s pid = member pid l := by
  revert l s
  refine run_ind rfl ?_
  intro l s a t _ b ih ht
  rw [member_snoc]
  have other : (∀ p, a ≠ .addPeer p) → (∀ p, a ≠ .delPeer p) → hasPeer t pid = member pid l := by
    intro h1 h2
    unfold hasPeer
    rw [find_of_known (known_step ht h1 h2), ← ih]
    rfl
  cases a with
  | addPeer q =>
    simp only [step, Option.some.injEq] at ht
    subst ht
    simp only
    unfold addPeer
    split
    · rename_i hf
      rw [← ih]
      show (find s pid).isSome = _
      split
      · rename_i e; subst e; exact hf
      · rfl
    · rename_i hf
      show (find _ pid).isSome = _
      unfold find
      rw [List.find?_append]
      have hq : find s q = none := by simpa using hf
      have hpq : (find s pid).isSome = member pid l := ih
      unfold find at hq hpq
      rw [Option.isSome_map] at hpq
      simp only [Option.map_eq_none_iff] at hq
      split
      · rename_i e; subst e; simp [hq]
      · rename_i e
        simp only [Option.isSome_map, List.find?_cons, e, decide_false, List.find?_nil, Option.or_none]
        exact hpq
  | delPeer q =>
    simp only [step, Option.some.injEq] at ht
    subst ht
    simp only
    cases hf : find s q with
    | none =>
      have : hasPeer (delPeer s q) pid = hasPeer s pid := by
        simp only [delPeer, hf, hasPeer]; rfl
      rw [this]
      split
      · rename_i e; subst e; simp [hasPeer, hf]
      · exact ih
    | some p =>
      have k := del_eff s q p hf
      show (find _ pid).isSome = _
      unfold find
      rw [k.known, List.find?_filter]
      have hpq : (find s pid).isSome = member pid l := ih
      unfold find at hpq
      rw [Option.isSome_map] at hpq
      split
      · rename_i e; subst e
        simp
      · rename_i e
        rw [← hpq, Option.isSome_map]
        congr 2
        funext x
        by_cases hx : x.1 = pid
        · have : ¬ pid = q := fun h => e h.symm
          simp [hx, this]
        · simp [hx]
  | _ => exact other (by simp) (by simp)

/-- Adding a known peer reports an error and changes nothing else; so do deleting, connecting and giving an address to a
peer that is not known.  The good cases of adding and deleting report no error. -/
theorem C58_errors (g : Cfg) (l : List Act) (s : St) (h : run g init l = some s) (pid : Nat) :
    (member pid l = true →
      step g s (.addPeer pid) = some { s with errs := s.errs ++ [.alreadyExists] } ∧
      ∀ t, step g s (.delPeer pid) = some t → t.errs = s.errs) ∧
    (member pid l = false →
      (∀ t, step g s (.addPeer pid) = some t → t.errs = s.errs) ∧
      getPeerConn s pid = none ∧
      step g s (.delPeer pid) = some { s with errs := s.errs ++ [.notExist] } ∧
      (∀ n, step g s (.connPeer pid n) = some { s with errs := s.errs ++ [.notExist] }) ∧
      ∀ a, step g s (.setAddr pid a) = some { s with errs := s.errs ++ [.notExist] }) := by
  rw [← C58_membership g l s h pid]
  unfold hasPeer
  constructor
  · intro hm
    obtain ⟨p, hp⟩ := Option.isSome_iff_exists.mp hm
    refine ⟨by simp [step, addPeer, hp], ?_⟩
    intro t ht
    simp only [step, Option.some.injEq] at ht
    rw [← ht]; exact (del_eff s pid p hp).errs
  · intro hm
    have hf : find s pid = none := by simpa using hm
    refine ⟨?_, by simp [getPeerConn, hf], by simp [step, delPeer, hf], by simp [step, connPeer, hf],
      by simp [step, setPeerAddr, hf]⟩
    intro t ht
    simp only [step, Option.some.injEq] at ht
    rw [← ht, addPeer, hf]; rfl

/-- Two peers, one deleted and added again, one deleted twice. -/
example : let g : Cfg := ⟨false, id, id, 9⟩
    let l : List Act := [.addPeer 1, .addPeer 2, .addPeer 1, .delPeer 1, .delPeer 2, .delPeer 2, .addPeer 1]
    (run g init l).map (fun s => (hasPeer s 1, hasPeer s 2, s.errs)) = some (true, false, [.alreadyExists, .notExist]) ∧
    member 1 l = true ∧ member 2 l = false := by decide +kernel

/-! ### C62 -/

/-- How many of the listed peers are reached over connection `c`. -/
def copies (s : St) (pids : List Nat) (c : Nat) : Nat := pids.countP (fun pid => getPeerConn s pid == some c)

theorem mc_append (s : St) (full : Nat → List Nat → Bool) (msg : Nat) (rest : List Nat)
    (hrest : rest = [] ∨ ∃ u post, rest = u :: post ∧ hasPeer s u = false)
    (pids : List Nat) (hk : ∀ pid ∈ pids, hasPeer s pid = true) (bufs : Nat → List Nat) (succ : Bool) :
    (∀ c, (∀ l, full c l = false) →
      (multicast s full msg (pids ++ rest) bufs succ).1 c = bufs c ++ List.replicate (copies s pids c) msg) ∧
    (∀ c, ∃ k, k ≤ copies s pids c ∧
      (multicast s full msg (pids ++ rest) bufs succ).1 c = bufs c ++ List.replicate k msg) ∧
    (rest ≠ [] → (multicast s full msg (pids ++ rest) bufs succ).2 = some .notExist) ∧
    (rest = [] → ((multicast s full msg (pids ++ rest) bufs succ).2 = none ↔ succ = true ∧
      ∀ c, (multicast s full msg (pids ++ rest) bufs succ).1 c = bufs c ++ List.replicate (copies s pids c) msg)) ∧
    (rest = [] → (multicast s full msg (pids ++ rest) bufs succ).2 = none ∨
      (multicast s full msg (pids ++ rest) bufs succ).2 = some .notReady) := by
  induction pids generalizing bufs succ with
  | nil =>
    simp only [List.nil_append, copies, List.countP_nil, List.replicate_zero, List.append_nil]
    rcases hrest with e | ⟨u, post, e, hu⟩
    · subst e
      simp only [multicast]
      refine ⟨by simp, fun c => ⟨0, by simp⟩, by simp, ?_, ?_⟩ <;> cases succ <;> simp
    · subst e
      have : getPeerConn s u = none := by
        unfold hasPeer at hu; unfold getPeerConn
        simpa using hu
      simp [multicast, this]
  | cons pid pids ih =>
    have hp := hk pid List.mem_cons_self
    have hk' : ∀ q ∈ pids, hasPeer s q = true := fun q hq => hk q (List.mem_cons_of_mem _ hq)
    obtain ⟨c0, hc0⟩ : ∃ c, getPeerConn s pid = some c := by
      unfold hasPeer at hp
      obtain ⟨p, hp⟩ := Option.isSome_iff_exists.mp hp
      exact ⟨(s.peers p).conn, by simp [getPeerConn, hp]⟩
    simp only [List.cons_append, multicast, hc0]
    have hcop : ∀ c, copies s (pid :: pids) c = copies s pids c + (if c = c0 then 1 else 0) := by
      intro c
      simp only [copies, List.countP_cons, hc0]
      by_cases h : c = c0
      · simp [h]
      · have : ¬ c0 = c := fun e => h e.symm
        simp [h, this]
    split
    · rename_i hfull
      obtain ⟨i1, i2, i3, i4, i5⟩ := ih hk' bufs false
      refine ⟨?_, ?_, i3, ?_, i5⟩
      · intro c hc
        have : c ≠ c0 := by intro e; rw [← e, hc] at hfull; cases hfull
        rw [i1 c hc, hcop, if_neg this, Nat.add_zero]
      · intro c
        obtain ⟨k, hk, he⟩ := i2 c
        exact ⟨k, by rw [hcop]; omega, he⟩
      · intro hr
        constructor
        · intro h; have := ((i4 hr).mp h).1; cases this
        · rintro ⟨_, h⟩
          obtain ⟨k, hk, he⟩ := i2 c0
          have h1 := h c0
          rw [he, hcop, if_pos rfl] at h1
          have h2 := congrArg List.length h1
          simp at h2
          omega
    · rename_i hfull
      have happ : ∀ c k, upd bufs c0 (bufs c0 ++ [msg]) c ++ List.replicate k msg =
          bufs c ++ List.replicate (k + if c = c0 then 1 else 0) msg := by
        intro c k
        simp only [upd_apply]
        by_cases h : c = c0
        · subst h
          simp only [if_true]
          rw [Nat.add_comm k 1, ← List.replicate_append_replicate]
          simp
        · simp [h]
      obtain ⟨i1, i2, i3, i4, i5⟩ := ih hk' (upd bufs c0 (bufs c0 ++ [msg])) succ
      refine ⟨?_, ?_, i3, ?_, i5⟩
      · intro c hc
        rw [i1 c hc, happ, hcop]
      · intro c
        obtain ⟨k, hk, he⟩ := i2 c
        exact ⟨k + if c = c0 then 1 else 0, by rw [hcop]; omega, by rw [he, happ]⟩
      · intro hr
        rw [i4 hr]
        refine and_congr_right (fun _ => forall_congr' (fun c => ?_))
        rw [happ, hcop]

/-- multicast_msg to known peers writes the message once for each of them to that peer's connection and nothing else; an error
is reported exactly when some send buffer refused it, and no buffer with room is affected by that. -/
theorem C62_multicast (s : St) (full : Nat → List Nat → Bool) (msg : Nat) (pids : List Nat)
    (hk : ∀ pid ∈ pids, hasPeer s pid = true) (bufs : Nat → List Nat) :
    let r := multicast s full msg pids bufs true
    (∀ c, (∀ l, full c l = false) → r.1 c = bufs c ++ List.replicate (copies s pids c) msg) ∧
    (∀ c, ∃ k, k ≤ copies s pids c ∧ r.1 c = bufs c ++ List.replicate k msg) ∧
    (r.2 = none ∨ r.2 = some .notReady) ∧
    (r.2 = none ↔ ∀ c, r.1 c = bufs c ++ List.replicate (copies s pids c) msg) := by
  have h := mc_append s full msg [] (.inl rfl) pids hk bufs true
  rw [List.append_nil] at h
  exact ⟨h.1, h.2.1, h.2.2.2.2 rfl, by rw [h.2.2.2.1 rfl]; simp⟩

/-- When a listed peer is unknown, the peers before it get the message, the ones after it do not, and the
error says that a peer does not exist. -/
theorem C62_unknown (s : St) (full : Nat → List Nat → Bool) (msg : Nat) (pre post : List Nat) (u : Nat)
    (hk : ∀ pid ∈ pre, hasPeer s pid = true) (hu : hasPeer s u = false) (bufs : Nat → List Nat) :
    let r := multicast s full msg (pre ++ u :: post) bufs true
    (∀ c, (∀ l, full c l = false) → r.1 c = bufs c ++ List.replicate (copies s pre c) msg) ∧
    (∀ c, ∃ k, k ≤ copies s pre c ∧ r.1 c = bufs c ++ List.replicate k msg) ∧
    r.2 = some .notExist := by
  have h := mc_append s full msg (u :: post) (.inr ⟨u, post, rfl, hu⟩) pre hk bufs true
  exact ⟨h.1, h.2.1, h.2.2.1 (by simp)⟩

/-- Two known peers, then an unknown one, then a known one. -/
example : let g : Cfg := ⟨false, id, id, 9⟩
    (run g init [.addPeer 1, .addPeer 2, .addPeer 3]).map (fun s =>
      let r := multicast s (fun _ _ => false) 7 [2, 1, 5, 3] (fun _ => []) true
      (r.1 0, r.1 1, r.1 2, r.2, hasPeer s 5)) = some ([7], [7], [], some .notExist, false) := by decide +kernel

/-! ### C63 -/

/-- A handshake from an identity that was not added, on a live connection from outside, is reported to the unknown-peer
callback, the termination of the connection is requested, and nothing else happens: no report to the peer callback, no
change to any peer or to the connection any peer uses. -/
theorem C63_reported (g : Cfg) (s t : St) (c : Nat) (h : Hs) (draw : BitVec 16)
    (ht : step g s (.ping c h draw) = some t) (hlive : (s.conns c).term = false) (hpassive : (s.conns c).active = false)
    (hh : h.claimed ≠ 0) (hu : hasPeer s (pidOf g (s.conns c) h.claimed) = false) :
    t.unk = s.unk ++ [(h.claimed, c)] ∧ (t.conns c).asked = true ∧ t.cbs = s.cbs ∧ t.peers = s.peers ∧
    t.known = s.known ∧ ∀ d, (t.conns d).peer = (s.conns d).peer := by
  have hf : find s (pidOf g (s.conns c) h.claimed) = none := by simpa [hasPeer] using hu
  simp only [step] at ht
  split at ht
  · injection ht with ht
    subst ht
    simp only [pingClosure, hlive, hh, hpassive, hf]
    refine ⟨rfl, by simp [dispTerminate, setConn], rfl, rfl, rfl, fun d => ?_⟩
    exact link_term _ _ _
  · cases ht

/-- A connection is reported to the peer callback as connected only while a handshake message on it is processed whose
identity is that of a member, and from then on it is that peer's connection; no other event gives a peer a connection (adding
the peer gives it a terminated placeholder). -/
theorem C63_only_known (g : Cfg) (l : List Act) (s t : St) (a : Act) (hr : run g init l = some s) (ht : step g s a = some t) :
    (∀ c, t.cbs = s.cbs ++ [(c, true)] → ∃ pid, identity g s a = some (pid, c) ∧ hasPeer s pid = true ∧
      getPeerConn t pid = some c) ∧
    (∀ pid c, getPeerConn t pid = some c → getPeerConn s pid = some c ∨
      (identity g s a = some (pid, c) ∧ hasPeer s pid = true ∧ t.cbs = s.cbs ++ [(c, true)]) ∨
      (a = .addPeer pid ∧ c = s.n ∧ (t.conns c).term = true)) := by
  have b := basic_run basic_init hr
  have b' := b.step ht
  have e := step_eff ht
  have hid : ∀ {pid c}, identity g s a = some (pid, c) → (∀ p, a ≠ .addPeer p) ∧ (∀ p, a ≠ .delPeer p) := by
    intro pid c h; cases a <;> simp [identity] at h ⊢
  -- a member afterwards was the same member before, unless it has just been added
  have hback : ∀ pid p, find t pid = some p → find s pid = some p ∨ (a = .addPeer pid ∧ p = s.m) := by
    intro pid p hf
    cases a with
    | addPeer q =>
      simp only [step, Option.some.injEq] at ht
      subst ht
      unfold addPeer at hf
      split at hf
      · exact .inl hf
      · rename_i hq
        unfold find at hf ⊢
        simp only [List.find?_append] at hf
        cases h0 : s.known.find? (fun e => decide (e.1 = pid)) with
        | some x => rw [h0] at hf; simp at hf; exact .inl (by simp [hf])
        | none =>
          rw [h0] at hf
          simp only [Option.none_or, List.find?_cons, List.find?_nil] at hf
          by_cases hqp : q = pid
          · simp [hqp] at hf; exact .inr ⟨by rw [hqp], hf.symm⟩
          · simp [hqp] at hf
    | delPeer q =>
      simp only [step, Option.some.injEq] at ht
      subst ht
      cases hq : find s q with
      | none => simp only [delPeer, hq] at hf; exact .inl hf
      | some x =>
        have k := del_eff s q x hq
        have hm := find_mem hf
        rw [k.known] at hm
        simp only [List.mem_filter] at hm
        exact .inl (b.find_iff.mpr (b.known _ hm.1))
    | _ => left; rw [← hf]; exact (find_of_known (known_step ht (by simp) (by simp)) pid).symm
  constructor
  · intro c hc
    cases e with
    | quiet hcbs => rw [hcbs] at hc; have := congrArg List.length hc; simp at this
    | dial p ha hcbs => rw [hcbs] at hc; have := congrArg List.length hc; simp at this
    | add pid ha hcbs => rw [hcbs] at hc; have := congrArg List.length hc; simp at this
    | accept p c' pid hi hf hst htm hcbs hconn hlink hup hl =>
      rw [hcbs] at hc
      have := List.append_cancel_left hc
      simp only [List.cons.injEq, Prod.mk.injEq, and_true] at this
      subst this
      refine ⟨pid, hi, by simp [hasPeer, hf], ?_⟩
      have := hid hi
      rw [getPeerConn, find_of_known (known_step ht this.1 this.2), hf]
      simp [hconn]
    | down p c' ha hp hcbs => rw [hcbs] at hc; have := List.append_cancel_left hc; simp at this
  · intro pid c hc
    unfold getPeerConn at hc
    obtain ⟨p, hp, hpc⟩ := Option.map_eq_some_iff.mp hc
    have quiet : (∀ p, (t.peers p).conn = (s.peers p).conn) → (∀ q, a ≠ .addPeer q) → getPeerConn s pid = some c := by
      intro h1 h2
      rcases hback pid p hp with h | h
      · simp [getPeerConn, h, ← h1, hpc]
      · exact absurd h.1 (h2 _)
    cases e with
    | quiet hcbs hconn hlink =>
      rcases hback pid p hp with h | ⟨h, hm⟩
      · left; simp [getPeerConn, h, ← hconn, hpc]
      · subst h
        simp only [step, Option.some.injEq] at ht
        subst ht
        unfold addPeer at hp hpc
        split at hp
        · rename_i hq
          left
          rw [if_pos hq] at hpc
          have hp' : find s pid = some p := hp
          simp only at hpc
          simp [getPeerConn, hp', hpc]
        · rename_i hq
          rw [if_neg hq] at hpc
          rw [hm] at hpc
          simp [newPeer] at hpc
          refine .inr (.inr ⟨rfl, hpc.symm, ?_⟩)
          rw [addPeer, if_neg hq, ← hpc]
          simp
    | dial q ha hcbs hconn hlink hnew => exact .inl (quiet hconn (by rw [ha]; simp))
    | add q ha hcbs hconn hlink hnew =>
      rcases hback pid p hp with h | ⟨h, hm⟩
      · left
        have h1 := (b.find_iff.mp h).1
        rw [hconn, if_neg (by omega)] at hpc
        simp [getPeerConn, h, hpc]
      · right; right
        refine ⟨h, ?_, ?_⟩
        · rw [← hpc, hconn, if_pos hm]
        · rw [← hpc, hconn, if_pos hm]
          rw [h] at ht
          simp only [step, Option.some.injEq] at ht
          subst ht
          rw [addPeer] at hp ⊢
          split
          · rename_i hq
            rw [if_pos hq] at hp
            have := (b.find_iff.mp (show find s pid = some p from hp)).1
            omega
          · simp
    | accept q c' pid' hi hf hst htm hcbs hconn hlink hup hl =>
      have hn := hid hi
      rcases hback pid p hp with h | h
      · rw [hconn] at hpc
        split at hpc
        · rename_i hqp
          subst hqp
          have e1 := (b.find_iff.mp h).2.1
          have e2 := (b.find_iff.mp hf).2.1
          have : pid = pid' := by rw [← e1, ← e2]
          subst this; subst hpc
          exact .inr (.inl ⟨hi, by simp [hasPeer, hf], hcbs⟩)
        · left; simp [getPeerConn, h, hpc]
      · exact absurd h.1 (hn.1 _)
    | down q c' ha hp' hcbs hconn hlink hdown => exact .inl (quiet hconn (by rw [ha]; simp))

theorem cbs_lt (g : Cfg) (l : List Act) (s : St) (h : run g init l = some s) : ∀ e ∈ s.cbs, e.1 < s.n := by
  revert l s
  refine run_ind (by simp [init]) ?_
  intro l s a t _ b ih ht e he
  have hn := (life_step ht).n
  have old : e ∈ s.cbs → e.1 < t.n := fun h => by have := ih e h; omega
  cases step_eff ht with
  | quiet hcbs => rw [hcbs] at he; exact old he
  | dial p ha hcbs => rw [hcbs] at he; exact old he
  | add pid ha hcbs => rw [hcbs] at he; exact old he
  | accept p c pid hi hf hst htm hcbs hconn hlink hup hl =>
    rw [hcbs] at he
    rcases List.mem_append.mp he with he | he
    · exact old he
    · simp only [List.mem_singleton] at he; subst he
      exact ((b.step ht).link c p hl).1
  | down p c ha hp hcbs =>
    rw [hcbs] at he
    rcases List.mem_append.mp he with he | he
    · exact old he
    · simp only [List.mem_singleton] at he; subst he
      have := (b.link c p hp).1
      simp only; omega

/-- A connection from outside on which every handshake message that was processed came from an identity that was not a
member at that moment never is any peer's connection and is never given to the peer callback. -/
theorem C63_never (g : Cfg) (l : List Act) (s : St) (h : run g init l = some s) (c : Nat) (hc : c < s.n)
    (hpassive : (s.conns c).active = false) (haddr : (s.conns c).addr ≠ 0)
    (hall : ∀ x ∈ trace g init l, ∀ pid, identity g x.1 x.2 = some (pid, c) → hasPeer x.1 pid = false) :
    (s.conns c).peer = none ∧ (∀ pid, getPeerConn s pid ≠ some c) ∧ ∀ b, (c, b) ∉ s.cbs := by
  revert l s
  refine run_ind ?_ ?_
  · intro hc; simp [init] at hc
  intro l s a t hr b ih ht hc hpas hadd htr
  rw [trace_snoc hr] at htr
  have htr1 : ∀ x ∈ trace g init l, ∀ pid, identity g x.1 x.2 = some (pid, c) → hasPeer x.1 pid = false :=
    fun x hx => htr x (List.mem_append_left _ hx)
  have htr2 : ∀ pid, identity g s a = some (pid, c) → hasPeer s pid = false := htr (s, a) (by simp)
  have hl := life_step ht
  obtain ⟨i1, i2, i3⟩ : (s.conns c).peer = none ∧ (∀ pid, getPeerConn s pid ≠ some c) ∧ ∀ b, (c, b) ∉ s.cbs := by
    by_cases h : c < s.n
    · exact ih h (by rw [← hl.active c h]; exact hpas) (by rw [← hl.addr c h]; exact hadd) htr1
    · refine ⟨?_, fun pid hp => ?_, fun b hb => ?_⟩
      · cases e : (s.conns c).peer with
        | none => rfl
        | some p => exact absurd (b.link c p e).1 h
      · obtain ⟨p, hp, hpc⟩ := Option.map_eq_some_iff.mp hp
        have := (b.idx p (b.find_iff.mp hp).1).1; omega
      · have := cbs_lt g l s hr _ hb; simp only at this; omega
  have hconn : ∀ pid, getPeerConn t pid ≠ some c := by
    intro pid hp
    rcases (C63_only_known g l s t a hr ht).2 pid c hp with h | h | h
    · exact i2 pid h
    · have := htr2 pid h.1; rw [h.2.1] at this; cases this
    · rw [h.1] at ht
      simp only [step, Option.some.injEq] at ht
      subst ht
      have hc' := h.2.1
      subst hc'
      have hh := h.2.2
      unfold addPeer at hc hadd
      split at hc
      · simp only at hc; omega
      · rename_i hq; rw [if_neg hq] at hadd; simp [newConn] at hadd
  have hlnk : (∀ q, (t.conns c).peer = some q → (s.conns c).peer = some q) → (t.conns c).peer = none := by
    intro h
    cases e : (t.conns c).peer with
    | none => rfl
    | some p => have := h p e; rw [i1] at this; cases this
  cases step_eff ht with
  | quiet hcbs _ hlink => exact ⟨hlnk (hlink c), hconn, fun b => by rw [hcbs]; exact i3 b⟩
  | dial p ha hcbs _ hlink hnew =>
    refine ⟨hlnk (fun q hq => ?_), hconn, fun b => by rw [hcbs]; exact i3 b⟩
    rw [hlink] at hq
    split at hq
    · rename_i e; rw [e, hnew] at hpas; cases hpas
    · exact hq
  | add pid ha hcbs _ hlink hnew =>
    refine ⟨hlnk (fun q hq => ?_), hconn, fun b => by rw [hcbs]; exact i3 b⟩
    rw [hlink] at hq
    split at hq
    · rename_i e; rw [e, hnew] at hadd; exact absurd rfl hadd
    · exact hq
  | accept p c' pid hi hf hst htm hcbs _ hlink hup hl =>
    have hne : c' ≠ c := by
      intro e; subst e
      have := htr2 pid hi; simp [hasPeer, hf] at this
    refine ⟨hlnk (fun q hq => ?_), hconn, fun b => ?_⟩
    · rcases hlink c q hq with h | h
      · exact absurd h.1.symm hne
      · exact h
    · rw [hcbs]
      simp only [List.mem_append, List.mem_singleton, Prod.mk.injEq, not_or]
      exact ⟨i3 b, fun h => hne h.1.symm⟩
  | down p c' ha hp hcbs _ hlink hdown =>
    have hne : c' ≠ c := by
      intro e; subst e
      rw [i1] at hp; cases hp
    refine ⟨hlnk (fun q hq => by rw [← hlink]; exact hq), hconn, fun b => ?_⟩
    rw [hcbs]
    simp only [List.mem_append, List.mem_singleton, Prod.mk.injEq, not_or]
    exact ⟨i3 b, fun h => hne h.1.symm⟩

/-- Member 5 and stranger 6 connect; the stranger tries twice. -/
example : let g : Cfg := ⟨false, id, id, 9⟩
    let l : List Act := [.addPeer 5, .accept 50 0, .accept 60 0, .established 1 0 0, .established 2 0 0,
      .ping 2 ⟨6, 3⟩ 0, .ping 1 ⟨5, 3⟩ 0, .ping 2 ⟨6, 4⟩ 0]
    (run g init l).map (fun s => (s.cbs, s.unk, (s.conns 2).asked, (s.conns 2).peer, getPeerConn s 5)) =
      some ([(1, true)], [(6, 2), (6, 2)], true, none, some 1) ∧
    (trace g init l).all (fun x => match identity g x.1 x.2 with
      | some (pid, 2) => !hasPeer x.1 pid
      | _ => true) = true := by decide +kernel

/-! ### C59 -/

/-- get_npending() gives the number of connections waiting for their handshake. -/
def C59_statement : Prop := ∀ g l s, run g init l = some s → getNpending s = .ok (waiting s)

/-- The count is read back as a `bool`: with two pending connections the value is not defined. -/
theorem C59_violated : ¬ C59_statement := by
  intro h
  have e : ∀ s, run ⟨false, id, id, 9⟩ init [.accept 50 0, .accept 60 0, .established 0 0 0, .established 1 0 0] = some s →
      getNpending s = .ub := by
    intro s hs
    have : (run ⟨false, id, id, 9⟩ init [.accept 50 0, .accept 60 0, .established 0 0 0, .established 1 0 0]).map getNpending = some .ub := by
      decide +kernel
    rw [hs] at this
    simpa using this
  cases hr : run ⟨false, id, id, 9⟩ init [.accept 50 0, .accept 60 0, .established 0 0 0, .established 1 0 0] with
  | none => have : (run ⟨false, id, id, 9⟩ init [.accept 50 0, .accept 60 0, .established 0 0 0, .established 1 0 0]).isSome = true := by decide +kernel
            rw [hr] at this; cases this
  | some s =>
    have h1 := h _ _ s hr
    rw [e s hr] at h1; cases h1

/-- Two connections with one address (a client that reconnects from the same port before its old connection has been torn
down): the teardown of the old one takes the new one off the table, which is waiting all the same. -/
theorem C59_violated_same_address : ∃ l s, run ⟨false, id, id, 9⟩ init l = some s ∧ waiting s = 1 ∧ getNpending s = .ok 0 := by
  let l : List Act := [.accept 50 0, .established 0 0 0, .lost 0, .accept 50 0, .established 1 0 0, .teardown 0]
  have h : (run ⟨false, id, id, 9⟩ init l).map (fun s => (waiting s, getNpending s)) = some (1, .ok 0) := by decide +kernel
  cases hr : run ⟨false, id, id, 9⟩ init l with
  | none => rw [hr] at h; cases h
  | some s =>
    rw [hr] at h
    simp only [Option.map_some, Option.some.injEq, Prod.mk.injEq] at h
    exact ⟨l, s, hr, h.1, h.2⟩

theorem pend_run (g : Cfg) (l : List Act) (s : St) (h : run g init l = some s) :
    Placeholders s ∧ UpInv s ∧ (DistinctAddrs s → Pend s) := by
  revert l s
  refine run_ind ⟨by intro c hc; simp [init] at hc, upInv_init, fun _ => ⟨by simp [init], by simp [init]⟩⟩ ?_
  intro l s a t hr b ⟨z, u, i⟩ ht
  refine ⟨placeholders_step z ht, upInv_step b u ht, fun hd => ?_⟩
  have hl := life_step ht
  have hd' : DistinctAddrs s := by
    intro c d hc hdl hne ha h0
    have := hd c d (by have := hl.n; omega) (by have := hl.n; omega) hne (by rw [hl.active c hc]; exact ha) (by rw [hl.addr c hc]; exact h0)
    rw [hl.addr c hc, hl.addr d hdl] at this
    exact this
  exact pend_step b z u hd' (i hd') ht

/-- Partial: if no other connection ever had the address of a connection from outside, the table has exactly one entry for each
waiting connection; so get_npending() is right as long as it is at most 1 (modulo 256).  Missing: larger counts, where the
value is undefined or wrong (`C59_violated`), and repeated addresses (`C59_violated_same_address`). -/
theorem C59_count_partial (g : Cfg) (l : List Act) (s : St) (h : run g init l = some s) (hd : DistinctAddrs s) :
    s.pending.length = waiting s ∧ (waiting s ≤ 1 → getNpending s = .ok (waiting s)) := by
  obtain ⟨_, _, i⟩ := pend_run g l s h
  have i := i hd
  have hlen : s.pending.length = waiting s := by
    unfold waiting
    rw [List.countP_eq_length_filter]
    have h1 : (s.pending.map (·.2)).length ≤ ((List.range s.n).filter (Waiting s)).length := by
      refine nodup_len i.nodup (fun c hc => ?_)
      obtain ⟨e, he, hec⟩ := List.mem_map.mp hc
      have := (i.mem e).mp he
      rw [List.mem_filter, List.mem_range, ← hec]
      exact ⟨this.1, this.2.1⟩
    have h2 : ((List.range s.n).filter (Waiting s)).length ≤ (s.pending.map (·.2)).length := by
      refine nodup_len (List.Nodup.sublist List.filter_sublist List.nodup_range) (fun c hc => ?_)
      rw [List.mem_filter, List.mem_range] at hc
      exact List.mem_map.mpr ⟨((s.conns c).addr, c), (i.mem _).mpr ⟨hc.1, hc.2, rfl⟩, rfl⟩
    rw [List.length_map] at h1 h2
    omega
  refine ⟨hlen, fun h1 => ?_⟩
  unfold getNpending readAsBool
  rw [hlen, if_pos (by omega), Nat.mod_eq_of_lt (by omega)]

/-- Three connections come in; one completes its handshake, one goes away, one is still waiting. -/
example : let g : Cfg := ⟨false, id, id, 9⟩
    let l : List Act := [.addPeer 5, .accept 50 0, .accept 60 0, .accept 70 0, .established 1 0 0, .established 2 0 0, .established 3 0 0,
      .ping 1 ⟨5, 3⟩ 0, .lost 2, .teardown 2]
    (run g init l).map (fun s => (waiting s, getNpending s, (List.range s.n).all (fun c => (List.range s.n).all (fun d =>
      c == d || (s.conns c).active || (s.conns c).addr == 0 || (s.conns c).addr != (s.conns d).addr)))) =
      some (1, .ok 1, true) := by decide +kernel

end Salticidae
