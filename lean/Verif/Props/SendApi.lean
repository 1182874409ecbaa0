import Verif.Lemmas.SendApi
namespace Salticidae
open SendApi Spec.SendApi

/-! ## C87: the answer to a send is true -/

/-- For every history: send_msg of the three networks answers truthfully, also in C, and the errors that are (or are
going to be) reported are, in order, those of the deferred calls that did not put their message into the buffers of all
their targets; and a listed peer whose buffer has room gets a multicast. -/
def C87_statement : Prop := ∀ (g : Cfg) (l : List Act) (s : St), run g init l = some s →
  (∀ d m room t r, step g s (.send d m room) = some (t, .res r) → Truthful s t d m r) ∧
  (∀ d m room t r, step g s (.cSend d m room) = some (t, .res r) → CTruthful s t d m r) ∧
  (g.errorCb = true → s.cbs ++ s.user = (trace g init l).filterMap (failed g)) ∧
  (∀ ps k ks t, s.disp = k :: ks → k.dest = .peers ps → step g s (.dispatch []) = some (t, .none) →
    ∀ p ∈ ps, ∀ c, entry s.peers p = some c → k.msg ∈ t.buf c)

/-- peernetwork_send_msg (C) drops the answer of the C++ function: it says `true` although the buffer is full. -/
theorem C87_violated_c : ¬ C87_statement := by
  intro h
  have := (h ⟨1, true⟩ [.peers [(5, 0)]] _ rfl).2.1 (.peer 5) [1#8] false _ _ rfl
  rcases this with ⟨_, h1⟩ | ⟨h1, _⟩
  · have := h1 0; revert this; decide
  · cases h1

/-- So does clientnetwork_send_msg. -/
theorem C87_violated_c_client : ¬ C87_statement := by
  intro h
  have := (h ⟨1, true⟩ [.clients [(5, 0)]] _ rfl).2.1 (.client 5) [1#8] false _ _ rfl
  rcases this with ⟨_, h1⟩ | ⟨h1, _⟩
  · have := h1 0; revert this; decide
  · cases h1

/-- ClientNetwork::send_msg_deferred drops it too: the buffer is full and nothing is reported. -/
theorem C87_violated_deferred : ¬ C87_statement := by
  intro h
  have := (h ⟨1, true⟩ [.clients [(5, 0)], .defer (.client 5) [1#8], .dispatch [false]] _ rfl).2.2.1 rfl
  revert this
  decide

/-- A multicast stops at the first peer that does not exist: the peers named after it get nothing. -/
theorem C87_violated_multicast : ¬ C87_statement := by
  intro h
  have := (h ⟨0, true⟩ [.peers [(5, 0)], .defer (.peers [4, 5]) [1#8]] _ rfl).2.2.2 [4, 5] _ _ _ rfl rfl rfl 5 (by decide) 0 (by decide)
  revert this
  decide

/-- `send_msg` of MsgNetwork, PeerNetwork and ClientNetwork is truthful in every state: it returns `true` exactly when the message
is at the end of the send buffer of the connection it is for, `false` when that buffer refused it, and throws when there is no such peer or
client. -/
theorem C87_send (g : Cfg) (s t : St) (d : Dest) (m : Seg) (room : Bool) (r : Answer) (h : step g s (.send d m room) = some (t, .res r)) :
    Truthful s t d m r := by
  have key : ∀ c, (sendConn g s c m room) = (t, r) → (r = .ret true ∧ Delivered s t [c] m) ∨ (r = .ret false ∧ t.buf = s.buf) := by
    intro c hc
    simp only [sendConn, Prod.mk.injEq] at hc
    obtain ⟨rfl, rfl⟩ := hc
    rcases write_spec g s c m room with ⟨h1, h2⟩ | ⟨h1, h2⟩
    · left; exact ⟨by rw [h1], h2⟩
    · right; exact ⟨by rw [h1], by rw [h2]⟩
  unfold Truthful
  cases d with
  | conn c =>
    simp only [step, Option.some.injEq, Prod.mk.injEq, Ret.res.injEq] at h
    exact key c (Prod.ext h.1 h.2)
  | peer p =>
    simp only [step, Option.some.injEq, Prod.mk.injEq, Ret.res.injEq, sendPeer, lookup_entry] at h
    simp only [targets]
    cases he : entry s.peers p with
    | none => simp only [he] at h; exact ⟨h.2.symm, by rw [← h.1]⟩
    | some c => simp only [he] at h; exact key c (Prod.ext h.1 h.2)
  | client p =>
    simp only [step, Option.some.injEq, Prod.mk.injEq, Ret.res.injEq, sendClient, lookup_entry] at h
    simp only [targets]
    cases he : entry s.clients p with
    | none => simp only [he] at h; exact ⟨h.2.symm, by rw [← h.1]⟩
    | some c => simp only [he] at h; exact key c (Prod.ext h.1 h.2)
  | peers ps => simp [step] at h

/-- Accepted, refused, and sent to nobody. -/
example : (step ⟨1, true⟩ { init with peers := [(5, 2)] } (.send (.peer 5) [1#8] true)).map (fun x => (x.1.buf 2, x.2)) =
      some ([[1#8]], .res (.ret true)) ∧
    (step ⟨1, true⟩ { init with peers := [(5, 2)] } (.send (.peer 5) [1#8] false)).map (fun x => (x.1.buf 2, x.2)) =
      some ([], .res (.ret false)) ∧
    (step ⟨1, true⟩ { init with peers := [(5, 2)] } (.send (.peer 4) [1#8] true)).map (·.2) = some (.res (.thrown .peerNotExist)) := by
  decide

/-- The C functions are truthful as long as the buffer does not refuse, and msgnetwork_send_msg always is.  Missing: refusals, see
`C87_violated_c`. -/
theorem C87_c_partial (g : Cfg) (s t : St) (d : Dest) (m : Seg) (room : Bool) (r : Answer) (h : step g s (.cSend d m room) = some (t, .res r))
    (hr : room = true ∨ g.maxSend = 0 ∨ ∃ c, d = .conn c) : CTruthful s t d m r := by
  have hs : ∃ r', step g s (.send d m room) = some (t, .res r') ∧ ((∃ c, d = .conn c) ∧ r = r' ∨
      (r' = .ret true ∧ r = .ret true) ∨ (r' = .ret false ∧ r = .ret true) ∨ ((∃ e, r' = .thrown e) ∧ r = .ret false)) := by
    have hw : ∀ x : St × Answer, wrap x = (t, r) → ∃ r', x = (t, r') ∧
        ((r' = .ret true ∧ r = .ret true) ∨ (r' = .ret false ∧ r = .ret true) ∨ ((∃ e, r' = .thrown e) ∧ r = .ret false)) := by
      rintro ⟨u, q⟩ hx
      cases q with
      | ret b =>
        simp only [wrap, Prod.mk.injEq] at hx
        refine ⟨.ret b, by rw [hx.1], ?_⟩
        cases b
        · exact .inr (.inl ⟨rfl, hx.2.symm⟩)
        · exact .inl ⟨rfl, hx.2.symm⟩
      | thrown e =>
        simp only [wrap, Prod.mk.injEq] at hx
        exact ⟨.thrown e, by rw [hx.1], .inr (.inr ⟨⟨e, rfl⟩, hx.2.symm⟩)⟩
    cases d with
    | conn c => exact ⟨r, h, .inl ⟨⟨c, rfl⟩, rfl⟩⟩
    | peer p =>
      simp only [step, Option.some.injEq, Prod.mk.injEq, Ret.res.injEq] at h
      obtain ⟨r', h1, h2⟩ := hw _ (Prod.ext h.1 h.2)
      exact ⟨r', by simp [step, h1], .inr h2⟩
    | client p =>
      simp only [step, Option.some.injEq, Prod.mk.injEq, Ret.res.injEq] at h
      obtain ⟨r', h1, h2⟩ := hw _ (Prod.ext h.1 h.2)
      exact ⟨r', by simp [step, h1], .inr h2⟩
    | peers p => simp [step] at h
  obtain ⟨r', h1, h2⟩ := hs
  have h3 := C87_send g s t d m room r' h1
  unfold Truthful at h3
  unfold CTruthful
  have hno : r' = .ret false → r = .ret true → ∃ c, d = .conn c := by
    intro e1 e2
    have hok : room = true ∨ g.maxSend = 0 → ∀ c, (write g s c m room).2 = true := by
      rintro (h | h) c <;> simp [write, h]
    cases d with
    | conn c => exact ⟨c, rfl⟩
    | peer p =>
      have hok := hok (by simpa using hr)
      simp only [step, sendPeer, sendConn] at h1
      split at h1 <;> simp_all
    | client p =>
      have hok := hok (by simpa using hr)
      simp only [step, sendClient, sendConn] at h1
      split at h1 <;> simp_all
    | peers p => simp [step] at h
  split at h3
  · obtain ⟨rfl, h3⟩ := h3
    rcases h2 with ⟨⟨c, rfl⟩, rfl⟩ | ⟨h2, _⟩ | ⟨h2, _⟩ | ⟨_, h2⟩
    · rename_i ht; simp [targets] at ht
    · cases h2
    · cases h2
    · exact ⟨h2, h3⟩
  · rcases h2 with ⟨_, rfl⟩ | ⟨rfl, rfl⟩ | ⟨rfl, rfl⟩ | ⟨⟨e, rfl⟩, rfl⟩
    · exact h3
    · exact h3
    · obtain ⟨c, rfl⟩ := hno rfl rfl
      simp only [step] at h h1
      rw [h] at h1; cases h1
    · rcases h3 with ⟨h3, _⟩ | ⟨h3, _⟩ <;> cases h3

example : (step ⟨1, true⟩ { init with clients := [(5, 2)] } (.cSend (.client 5) [1#8] true)).map (fun x => (x.1.buf 2, x.2)) =
    some ([[1#8]], .res (.ret true)) ∧
    (step ⟨1, true⟩ { init with clients := [(5, 2)] } (.cSend (.client 6) [1#8] true)).map (fun x => (x.1.buf 2, x.2)) =
    some ([], .res (.ret false)) := by decide

/-- In every history in which the send buffer of a client does not refuse a deferred message, the errors reported are, in order and with the ids of their calls, exactly those of
the deferred calls that did not reach all their targets.  Missing: refusals by the buffer of a client, see
`C87_violated_deferred`. -/
theorem C87_deferred_partial (g : Cfg) (hg : g.errorCb = true) (l : List Act) (s : St) (h : run g init l = some s)
    (hc : ∀ x ∈ trace g init l, ∀ room, x.2 = .dispatch room → ∀ k ks a, x.1.disp = k :: ks → k.dest = .client a →
      room.headD true = true ∨ g.maxSend = 0) :
    s.cbs ++ s.user = (trace g init l).filterMap (failed g) := by
  revert hc
  refine history_ind' (P := fun l s => (∀ x ∈ trace g init l, ∀ room, x.2 = .dispatch room → ∀ k ks a, x.1.disp = k :: ks → k.dest = .client a →
      room.headD true = true ∨ g.maxSend = 0) → s.cbs ++ s.user = (trace g init l).filterMap (failed g)) ?_ ?_ l s h
  · intro _; rfl
  clear h s l
  intro l s a t r hr ih hs hc
  rw [trace_snoc' hr] at hc ⊢
  have ih := ih (fun x hx => hc x (List.mem_append_left _ hx))
  have hc := hc (s, a) (List.mem_append_right _ (by simp))
  rw [List.filterMap_append, ← ih]
  have idle : ∀ (y : List (Err × Nat)), (∀ room, a ≠ .dispatch room) → y ++ [(s, a)].filterMap (failed g) = y := by
    intro y hy
    have : failed g (s, a) = none := by
      unfold failed
      split
      · rename_i room _ _ _ _ h1 _ _; exact absurd h1 (hy room)
      · rfl
    simp [this]
  have quiet : ∀ c m room, (sendConn g s c m room).1.cbs = s.cbs ∧ (sendConn g s c m room).1.user = s.user := by
    intro c m room
    obtain ⟨_, f2, f3, _⟩ := write_frame g s c m room
    exact ⟨f3, f2⟩
  have quietp : ∀ c m room, (sendPeer g s c m room).1.cbs = s.cbs ∧ (sendPeer g s c m room).1.user = s.user := by
    intro c m room
    unfold sendPeer
    split
    · exact ⟨rfl, rfl⟩
    · exact quiet _ _ _
  have quietc : ∀ c m room, (sendClient g s c m room).1.cbs = s.cbs ∧ (sendClient g s c m room).1.user = s.user := by
    intro c m room
    unfold sendClient
    split
    · exact ⟨rfl, rfl⟩
    · exact quiet _ _ _
  have wrapq : ∀ x : St × Answer, (wrap x).1 = x.1 := by rintro ⟨x, _ | _⟩ <;> rfl
  cases a with
  | send d m room =>
    rw [idle _ (by simp)]
    cases d <;> simp only [step, Option.some.injEq, Prod.mk.injEq] at hs
    · rw [← hs.1, (quiet _ _ _).1, (quiet _ _ _).2]
    · rw [← hs.1, (quietp _ _ _).1, (quietp _ _ _).2]
    · rw [← hs.1, (quietc _ _ _).1, (quietc _ _ _).2]
    · cases hs
  | cSend d m room =>
    rw [idle _ (by simp)]
    cases d <;> simp only [step, Option.some.injEq, Prod.mk.injEq] at hs
    · rw [← hs.1, (quiet _ _ _).1, (quiet _ _ _).2]
    · rw [← hs.1, wrapq, (quietp _ _ _).1, (quietp _ _ _).2]
    · rw [← hs.1, wrapq, (quietc _ _ _).1, (quietc _ _ _).2]
    · cases hs
  | defer d m =>
    rw [idle _ (by simp)]
    simp only [step, Option.some.injEq, Prod.mk.injEq] at hs
    rw [← hs.1]
  | take c =>
    rw [idle _ (by simp)]
    simp only [step, Option.some.injEq, Prod.mk.injEq] at hs
    rw [← hs.1]
  | peers c =>
    rw [idle _ (by simp)]
    simp only [step, Option.some.injEq, Prod.mk.injEq] at hs
    rw [← hs.1]
  | clients c =>
    rw [idle _ (by simp)]
    simp only [step, Option.some.injEq, Prod.mk.injEq] at hs
    rw [← hs.1]
  | notify =>
    rw [idle _ (by simp)]
    simp only [step] at hs
    split at hs
    · cases hs
    · rename_i x xs hu
      simp only [Option.some.injEq, Prod.mk.injEq] at hs
      rw [← hs.1, hu]
      simp [hg]
  | dispatch room =>
    have hs0 := hs
    simp only [step] at hs
    split at hs
    · cases hs
    rename_i k ks hd
    simp only [Option.some.injEq, Prod.mk.injEq] at hs
    cases hb : body g { s with disp := ks } k room with
    | mk u e =>
      rw [hb] at hs
      obtain ⟨b1, b2, b3, b4⟩ := body_spec g _ u k room e hb (fun a ha => hc room rfl k ks a hd ha)
      have htg : targets { s with disp := ks } k.dest = targets s k.dest := by cases k.dest <;> rfl
      simp only at b1 b2
      rw [htg] at b4
      have hfail : failed g (s, .dispatch room) = e.map (fun x => (x, k.id)) := by
        unfold failed
        simp only [hd, hs0]
        have htb : t.buf = u.buf := by rw [← hs.1]; cases e <;> rfl
        split at b4
        · rename_i h1; simp only [h1, b4]; rfl
        · rename_i cs h1
          simp only [h1]
          rcases b4 with ⟨rfl, b4⟩ | ⟨rfl, c, n, b5, b6⟩
          · rw [if_pos]
            · rfl
            · rw [List.all_eq_true]
              intro c _
              rw [htb, b4 c]; simp
          · rw [if_neg]
            · rfl
            intro hall
            rw [List.all_eq_true] at hall
            have hmem : c ∈ cs := List.count_pos_iff.mp (by omega)
            have := hall c hmem
            rw [htb, b6, beq_iff_eq, List.append_cancel_left_eq] at this
            have := congrArg List.length this
            simp at this; omega
      rw [← hs.1]
      simp only [List.filterMap_cons, List.filterMap_nil, hfail]
      cases e with
      | none => simp [report, b1, b2]
      | some e => simp [report, b1, b2]

/-- A refusal, an unknown peer and a success. -/
def deferRun : List Act := [.peers [(5, 0), (6, 1)], .clients [(7, 2)], .defer (.peer 5) [1#8], .defer (.peers [5, 6, 5]) [2#8],
  .defer (.peer 9) [3#8], .defer (.client 7) [4#8], .defer (.conn 0) [5#8], .dispatch [], .dispatch [true, false, true], .notify, .take 0,
  .dispatch [], .dispatch [], .dispatch [false]]

example : (run ⟨1, true⟩ init deferRun).map (fun s => (s.cbs, s.user)) =
      some ([(.connNotReady, 1)], [(.peerNotExist, 2), (.connNotReady, 4)]) ∧
    (run ⟨1, true⟩ init deferRun).map (fun s => (s.buf 0, s.buf 1, s.buf 2)) = some ([[2#8], [2#8]], [], [[4#8]]) ∧
    (trace ⟨1, true⟩ init deferRun).filterMap (failed ⟨1, true⟩) = [(.connNotReady, 1), (.peerNotExist, 2), (.connNotReady, 4)] := by decide

example : ∀ x ∈ trace ⟨1, true⟩ init deferRun, ∀ room, x.2 = .dispatch room → ∀ k ks a, x.1.disp = k :: ks → k.dest = .client a →
      room.headD true = true ∨ (⟨1, true⟩ : Cfg).maxSend = 0 := by
  intro x hx room h1 k ks a h2 h3
  have h : (trace ⟨1, true⟩ init deferRun).all (fun x => match x.2, x.1.disp with
      | .dispatch room, k :: _ => (match k.dest with | .client _ => room.headD true | _ => true)
      | _, _ => true) = true := by decide
  rw [List.all_eq_true] at h
  have := h x hx
  simp only [h1, h2, h3] at this
  exact .inl this

/-- In every history, the deferred calls run once each, in the order in which they were made. -/
theorem C87_order (g : Cfg) (l : List Act) (s : St) (h : run g init l = some s) :
    (trace g init l).filterMap made = (trace g init l).filterMap ran ++ s.disp.map (fun k => (k.dest, k.msg)) := by
  refine history_ind' (P := fun l s => (trace g init l).filterMap made = (trace g init l).filterMap ran ++ s.disp.map (fun k => (k.dest, k.msg))) rfl ?_ l s h
  clear h s l
  intro l s a t r hr ih hs
  rw [trace_snoc' hr, List.filterMap_append, List.filterMap_append, ih]
  have quiet : ∀ c m room, (sendConn g s c m room).1.disp = s.disp := fun c m room => (write_frame g s c m room).2.2.2
  have quietp : ∀ c m room, (sendPeer g s c m room).1.disp = s.disp := by
    intro c m room
    unfold sendPeer
    split
    · rfl
    · exact quiet _ _ _
  have quietc : ∀ c m room, (sendClient g s c m room).1.disp = s.disp := by
    intro c m room
    unfold sendClient
    split
    · rfl
    · exact quiet _ _ _
  have wrapq : ∀ x : St × Answer, (wrap x).1 = x.1 := by rintro ⟨x, _ | _⟩ <;> rfl
  cases a with
  | dispatch room =>
    simp only [step] at hs
    split at hs
    · cases hs
    rename_i k ks hd
    simp only [Option.some.injEq, Prod.mk.injEq] at hs
    have hb : (body g { s with disp := ks } k room).1.disp = ks := by
      have q1 := fun c => (write_frame g { s with disp := ks } c k.msg (room.headD true)).2.2.2
      have c1 : ∀ x : St × Answer, (check x).1 = x.1 ∧ (noCheck x).1 = x.1 := by rintro ⟨x, (_ | _) | _⟩ <;> exact ⟨rfl, rfl⟩
      unfold body
      split
      · rw [(c1 _).1]; exact q1 _
      · rw [(c1 _).1, sendPeer]
        split
        · rfl
        · exact q1 _
      · rw [(c1 _).1]
        exact (cast_spec g k.msg _ { s with disp := ks } _ room true _ rfl).2.2.2.1
      · rw [(c1 _).2, sendClient]
        split
        · rfl
        · exact q1 _
    have ht : t.disp = ks := by
      rw [← hs.1]
      cases (body g { s with disp := ks } k room).2 <;> exact hb
    rw [ht]
    simp [made, ran, hd, List.filterMap_cons]
  | notify =>
    simp only [step] at hs
    split at hs
    · cases hs
    · simp only [Option.some.injEq, Prod.mk.injEq] at hs
      rw [← hs.1]; simp [made, ran, List.filterMap_cons]
  | defer d m =>
    simp only [step, Option.some.injEq, Prod.mk.injEq] at hs
    rw [← hs.1]; simp [made, ran, List.filterMap_cons]
  | send d m room =>
    cases d <;> simp only [step, Option.some.injEq, Prod.mk.injEq] at hs
    · rw [← hs.1, quiet]; simp [made, ran, List.filterMap_cons]
    · rw [← hs.1, quietp]; simp [made, ran, List.filterMap_cons]
    · rw [← hs.1, quietc]; simp [made, ran, List.filterMap_cons]
    · cases hs
  | cSend d m room =>
    cases d <;> simp only [step, Option.some.injEq, Prod.mk.injEq] at hs
    · rw [← hs.1, quiet]; simp [made, ran, List.filterMap_cons]
    · rw [← hs.1, wrapq, quietp]; simp [made, ran, List.filterMap_cons]
    · rw [← hs.1, wrapq, quietc]; simp [made, ran, List.filterMap_cons]
    · cases hs
  | take c => simp only [step, Option.some.injEq, Prod.mk.injEq] at hs; rw [← hs.1]; simp [made, ran, List.filterMap_cons]
  | peers c => simp only [step, Option.some.injEq, Prod.mk.injEq] at hs; rw [← hs.1]; simp [made, ran, List.filterMap_cons]
  | clients c => simp only [step, Option.some.injEq, Prod.mk.injEq] at hs; rw [← hs.1]; simp [made, ran, List.filterMap_cons]

example : ((trace ⟨1, true⟩ init deferRun).filterMap ran).length = 5 := by decide

/-- A multicast to peers that all exist reaches every one of them whose buffer has room, whatever the buffers of the others answer.
Missing: lists that name a peer that does not exist, see `C87_violated_multicast`. -/
theorem C87_multicast_partial (g : Cfg) (s t : St) (k : Call) (ks : List Call) (ps cs : List Nat) (room : List Bool) (r : Ret)
    (hd : s.disp = k :: ks) (hk : k.dest = .peers ps) (hs : step g s (.dispatch room) = some (t, r))
    (hp : targets s k.dest = some cs) (c : Nat) (hr : ∀ i, cs[i]? = some c → room.getD i true = true ∨ g.maxSend = 0) :
    t.buf c = s.buf c ++ List.replicate (cs.count c) k.msg := by
  simp only [step, hd, Option.some.injEq, Prod.mk.injEq] at hs
  rw [hk] at hp
  have := cast_all g k.msg c ps { s with disp := ks } room true cs hp hr
  rw [← this, ← hs.1]
  unfold body
  simp only [hk]
  generalize castLoop g k.msg _ ps room true = x
  rcases x with ⟨x, (_ | _) | _⟩ <;> rfl

example : ∃ s t k ks, run ⟨1, true⟩ init (deferRun.take 8) = some s ∧ s.disp = k :: ks ∧ k.dest = .peers [5, 6, 5] ∧
    targets s k.dest = some [0, 1, 0] ∧ step ⟨1, true⟩ s (.dispatch [true, false, true]) = some t ∧ t.1.buf 0 = s.buf 0 ++ [[2#8], [2#8]] :=
  ⟨_, _, _, _, rfl, rfl, rfl, rfl, rfl, by decide⟩

/-- The deferred calls made in a history. -/
def calls (l : List Act) : Nat := (l.filter isDefer).length

/-- The ids of deferred calls are 0, 1, 2, ... and start again after 65535: of any 65536 calls in a row no two have the same, so an
error report says which call it is about. -/
theorem C87_ids (g : Cfg) (l : List Act) (s t : St) (h : run g init l = some s) (d : Dest) (m : Seg) (n : Nat)
    (hs : step g s (.defer d m) = some (t, .id n)) : n = calls l % 65536 ∧ t.disp = s.disp ++ [⟨n, d, m⟩] := by
  have key : s.ctr.toNat = calls l % 65536 := by
    refine history_ind' (P := fun l s => s.ctr.toNat = calls l % 65536) rfl ?_ l s h
    clear h hs s t l
    intro l s a t r _ ih hs
    have h1 := step_ctr hs
    rw [h1]
    have h2 : calls (l ++ [a]) = calls l + (if isDefer a then 1 else 0) := by
      cases a <;> simp [calls, isDefer, List.filter_cons]
    rw [h2, BitVec.toNat_add, ih]
    cases a <;> simp [isDefer]
  simp only [step, Option.some.injEq, Prod.mk.injEq, Ret.id.injEq] at hs
  obtain ⟨h1, h2⟩ := hs
  exact ⟨h2 ▸ key, by rw [← h1, ← h2]⟩

example : (run ⟨1, true⟩ init [.defer (.conn 1) [1#8], .take 1, .defer (.peer 4) [2#8]]).bind
    (fun s => (step ⟨1, true⟩ s (.defer (.peers [4, 5]) [3#8])).map (·.2)) = some (.id 2) := by decide

end Salticidae
