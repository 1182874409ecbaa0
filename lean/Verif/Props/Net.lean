import Verif.Lemmas.Net
/-
C98: typed messages from one node's send_msg to another node's handlers.
-/
namespace Salticidae
open Net

/-- C98.  Any number of nodes, connections and handlers; any interleaving of sends, socket callbacks, TCP, queue and loop.  What the handlers of
a node have been given from an end of a connection is, in order, a beginning of what send_msg has accepted at the other end: each message
once, to the handler registered for its opcode, with the value that was sent.  When the connection is drained, it is all of it. -/
theorem C98_typed_delivery {V : Type} (g : Cfg V) (as : List (Act g)) (s : St g) (hp : Spec.Net.Proper g as) (h : run g (init g) as = some s) (i : Nat) :
    (handled g s i).map (fun x => (some x.1, x.2)) <+: Spec.Net.expected g i (s.log (mate i)) ∧
    (drained g s i → (handled g s i).map (fun x => (some x.1, x.2)) = Spec.Net.expected g i (s.log (mate i))) := by
  obtain ⟨l, h1, h2, h3, h4⟩ := calls_of_log g as s hp h i
  have hh : (handled g s i).map (fun x => (some x.1, x.2)) = Spec.Net.expected g i l := by
    unfold handled
    rw [h4]
    clear h1 h3 h4
    induction l with
    | nil => rfl
    | cons m l ih =>
      have hm := h2 m (by simp)
      have hh := hm.handler
      rw [mate_mate] at hh
      obtain ⟨h, hh⟩ := Option.ne_none_iff_exists'.1 hh
      have ih := ih fun x hx => h2 x (by simp [hx])
      simp only [List.map_cons, List.filterMap_cons, itemOf, hh, Option.map_some, Spec.Net.expected] at ih ⊢
      rw [ih, uncode_code, hm.dec]
  rw [hh]
  exact ⟨h1.map _, fun d => by rw [h3 d]⟩

/-- C98, message types.  A type that writes its fields one after the other and reads fields of the same types back is read as it was written. -/
theorem C98_fields (e : Endian) (l : List Item) (h : (l.flatMap (Item.enc e)).length < 2 ^ 63) :
    (DataStream.empty.putItems e l).offset = 0 ∧
    ∃ t, (DataStream.ofBytes (DataStream.empty.putItems e l).buffer).getItems e (l.map Item.shape) = .ok t l ∧ t.size = 0 := by
  have hb : (DataStream.empty.putItems e l) = DataStream.ofBytes (l.flatMap (Item.enc e)) := by
    rw [DataStream.putItems_eq]; simp [DataStream.empty, DataStream.ofBytes]
  rw [hb]
  have hw : (DataStream.ofBytes (l.flatMap (Item.enc e))).Wf := ⟨Nat.zero_le _, h⟩
  obtain ⟨t, h1, h2, h3⟩ := DataStream.getItems_ok e l hw (rest := []) (by simp [DataStream.ofBytes, DataStream.unread])
  exact ⟨rfl, t, h1, by rw [DataStream.size_eq h2, h3]; rfl⟩

/-- Two nodes and a connection; messages are 16-bit numbers; the queue refuses one attempt. -/
def Net.sample : Cfg (BitVec 16) where
  e := .little
  ow := 1
  H := fun _ => [1, 2, 3, 4]
  magic := 77
  m0 := Msg.fresh 0 0 0
  maxMsg := fun _ => 8
  chunk := fun _ => 16
  maxSegs := fun _ => 4
  q := fun i k => decide (i = 0 ∨ k ≠ 1)
  node := fun i => i
  burst := fun _ => 2
  handlers := fun _ => [(5, ⟨1, true⟩), (5, ⟨2, true⟩), (6, ⟨3, true⟩)]
  beh := fun _ _ _ => .ok
  enc := fun _ v => DataStream.empty.putInt .little (w := 2) v
  dec := fun _ s => match s.getInt .little 2 with
    | .ok _ v => some v
    | _ => none

/-- Three messages to end 1 and one back. -/
def Net.sampleRun : List (Act Net.sample) :=
  [.io 0 .activate, .io 1 .activate, .send 0 5 300 true, .send 0 6 301 true, .send 1 5 900 true, .send 0 5 302 false, .send 0 5 303 true,
   .io 0 (.writable [.sent 100, .sent 3]), .net 1 9, .io 1 (.readable [5]), .io 0 (.writable [.sent 100, .sent 100]), .net 1 100,
   .io 1 (.readable []), .enq 1, .disp 1 (.prod 0), .disp 1 (.prod 0), .disp 1 (.prod 0), .io 1 (.readable []), .disp 1 .fire, .disp 1 .cb,
   .io 1 (.poll []), .enq 1, .disp 1 (.prod 1), .disp 1 .cb, .disp 1 .handle, .disp 1 .handle, .disp 1 .cb,
   .disp 1 (.prod 1), .disp 1 (.prod 1), .enq 1, .disp 1 (.prod 2), .disp 1 (.prod 2),
   .disp 1 .fire, .disp 1 .cb, .disp 1 .cb, .disp 1 .handle, .disp 1 .idle]

/-- The sample meets the hypotheses. -/
theorem Net.sample_proper : Spec.Net.Proper sample sampleRun := by
  have h : ∀ i op v ok, Act.send i op v ok ∈ sampleRun → (i, op, v) ∈ [(0, 5, 300), (0, 6, 301), (1, 5, 900), (0, 5, 302), (0, 5, 303)] := by
    intro i op v ok hm
    simp only [sampleRun, List.mem_cons, List.not_mem_nil, reduceCtorEq, false_or, or_false, Act.send.injEq] at hm
    rcases hm with ⟨rfl, rfl, rfl, _⟩ | ⟨rfl, rfl, rfl, _⟩ | ⟨rfl, rfl, rfl, _⟩ | ⟨rfl, rfl, rfl, _⟩ | ⟨rfl, rfl, rfl, _⟩ <;> simp
  have all : ∀ x ∈ ([(0, 5, 300), (0, 6, 301), (1, 5, 900), (0, 5, 302), (0, 5, 303)] : List (Nat × BitVec (8 * sample.ow) × BitVec 16)),
      ((sample.enc x.2.1 x.2.2).offset = 0 ∧ sample.dec x.2.1.toNat (DataStream.ofBytes (sample.enc x.2.1 x.2.2).buffer) = some x.2.2) ∧
      ((sample.enc x.2.1 x.2.2).buffer.length ≤ sample.maxMsg (mate x.1) ∧ (sample.enc x.2.1 x.2.2).buffer.length < 2 ^ 32) ∧
      Spec.Net.handlerOf (sample.handlers (sample.node (mate x.1))) x.2.1.toNat ≠ none := by decide
  exact ⟨fun i op v ok hm => (all _ (h i op v ok hm)).1, fun _ => by simp [sample], fun i op v ok hm => (all _ (h i op v ok hm)).2.1,
    fun i op v ok hm => (all _ (h i op v ok hm)).2.2⟩

instance Net.decOut : DecidableEq (Disp.Handler × Nat × Option (BitVec 16)) := inferInstance
instance Net.decOuts : DecidableEq (List (Disp.Handler × Nat × Option (BitVec 16))) := inferInstance

/-- In that run all three messages have been handled, one is still on its way back, and a refused one was never sent. -/
example : ∃ s, run sample (init sample) sampleRun = some s ∧ Spec.Net.Proper sample sampleRun ∧ drained sample s 1 ∧
    handled sample s 1 = [(⟨2, true⟩, 5, some 300), (⟨3, true⟩, 6, some 301), (⟨2, true⟩, 5, some 303)] ∧
    handled sample s 0 = [] ∧ (s.log 1).map (·.2) = [900] := by
  have h : (run sample (init sample) sampleRun).map (fun s => (((s.conn 0).sendq.isEmpty && (s.conn 1).arrived == (s.conn 0).sent && (s.conn 1).sock.isEmpty &&
      (s.conn 1).readOn && !(s.conn 1).poll && !(s.conn 1).killed && (s.pend 1).isEmpty && Disp.atRest (s.disp 1)), handled sample s 1, handled sample s 0, (s.log 1).map (·.2)))
    = some (true, [(⟨2, true⟩, 5, some 300), (⟨3, true⟩, 6, some 301), (⟨2, true⟩, 5, some 303)], [], [900]) := by
    decide +kernel
  obtain ⟨s, h1, h2⟩ := Option.map_eq_some_iff.mp h
  simp only [Prod.mk.injEq, Bool.and_eq_true, List.isEmpty_iff, beq_iff_eq, Bool.not_eq_true'] at h2
  obtain ⟨⟨⟨⟨⟨⟨⟨⟨a1, a2⟩, a3⟩, a4⟩, a5⟩, a6⟩, a7⟩, a8⟩, a9, a10, a11⟩ := h2
  exact ⟨s, h1, sample_proper, ⟨a1, a2, a3, a4, a5, a6, a7, a8⟩, a9, a10, a11⟩

/-- The end of the stream comes after everything that was sent, and only if the other end has been closed. -/
def Net.closeRun : List (Act Net.sample) :=
  [.io 0 .activate, .io 1 .activate, .send 0 5 300 true, .io 0 (.writable [.sent 100]), .io 0 .teardown]

example : (run sample (init sample) (closeRun ++ [.net 1 100, .close 1])).isSome = true ∧ (run sample (init sample) (closeRun ++ [.net 1 5, .close 1])).isSome = false ∧
    (run sample (init sample) (closeRun.dropLast ++ [.net 1 100, .close 1])).isSome = false := by decide +kernel

end Salticidae
