import Verif.Lemmas.Setup
/-
C101: networks are given the configuration that the program built.
-/
namespace Salticidae
open Setup

/-- The networks of a program: as many as it makes, each given, for every option of its class, the value of the last setting made on its
configuration, or the standard value; with TLS, its certificate, key and checks are those that were set, or its constructor throws. -/
def ConfiguredAs (outs : List (Cls × List Setting)) (objs : List Obj) : Prop :=
  objs.length = outs.length ∧ ∀ (i : Nat) (o : Obj) (s : Cls × List Setting), objs[i]? = some o → outs[i]? = some s →
    Spec.Setup.Given o s.1 (Spec.Setup.value s.2) ∧ ∀ env : Env, Spec.Setup.TlsAsked env (Spec.Setup.value s.2) (tlsOf env o.c)

theorem configuredAs (outs : List (Cls × List Setting)) : ConfiguredAs outs (outs.map fun o => objOf o.1 o.2) := by
  refine ⟨by simp, fun i o s h1 h2 => ?_⟩
  rw [List.getElem?_map, h2] at h1
  cases h1
  exact ⟨given_objOf _ _, fun env => tls_ok env _⟩

/-- **C101** (full statement).  Every program that compiles and only builds configurations (in variables and temporaries, with chains of setters,
copies, conversions and assignments) and networks from them: it is defined, and its networks are configured as it says. -/
def C101_statement : Prop :=
  ∀ ss : List Stmt, compiles [] ss = true → ∃ outs objs, Spec.Setup.run Spec.Setup.strict ⟨[], []⟩ ss = some outs ∧
    run ⟨[], []⟩ ss = some objs ∧ ConfiguredAs outs objs

/-- Programs that compile have a meaning: the specification leaves none of them out. -/
theorem C101_has_meaning (ss : List Stmt) (h : compiles [] ss = true) : ∃ outs, Spec.Setup.run Spec.Setup.strict ⟨[], []⟩ ss = some outs :=
  run_some ss typed_nil h (plainRun_strict ss [])

/-- **C101**, what holds: the statement for every program in which no setting is hidden by the static type when a configuration is
converted to a derived class (`Spec.Setup.unseen`), `msg_magic` is not called and `tls_skip_ca_check` is not given a pointer to `false`. -/
theorem C101_configured_partial (ss : List Stmt) (outs : List (Cls × List Setting))
    (h : Spec.Setup.run Spec.Setup.lenient ⟨[], []⟩ ss = some outs) :
    Spec.Setup.run Spec.Setup.strict ⟨[], []⟩ ss = some outs ∧ ∃ objs, run ⟨[], []⟩ ss = some objs ∧ ConfiguredAs outs objs :=
  ⟨run_mono ss h, _, run_ok ss ⟨rfl, rfl⟩ h, configuredAs outs⟩

/-- Two networks: one with the way of writing used in the tests, one from a named configuration that is changed in several steps. -/
def setupTour : List Stmt :=
  [ .net .msg (.set (.conv .msg (.set (.set (.fresh .conn) (.maxSendBuff 65536)) (.nworker 0))) (.burst 7)),
    .decl .peer (.fresh .peer),
    .eff (.set (.set (.var 0) (.ping 2)) (.connTimeout 5)),
    .eff (.set (.set (.var 0) (.maxMsgSize 65536)) (.queueSize 3)),
    .decl .peer (.var 0),
    .eff (.set (.var 0) (.ping 9)),
    .net .peer (.var 1) ]

example : compiles [] setupTour = true ∧ (Spec.Setup.run Spec.Setup.lenient ⟨[], []⟩ setupTour).isSome = true ∧
    (run ⟨[], []⟩ setupTour).map (fun l => l.map fun o => (o.c.nworker, o.c.maxSendBuff, o.m.burst)) = some [(1, 65536, 7), (1, 0, 1000)] ∧
    (run ⟨[], []⟩ setupTour).map (fun l => l.map fun o => (o.m.maxMsgSize, o.p.ping, o.p.connTimeout)) = some [(1024, 30, 180), (65536, 2, 5)] := by
  decide +kernel

/-- One conversion may be left to the compiler, not two: a ConnPool configuration can be used for a MsgNetwork, and has to be converted for a PeerNetwork. -/
example : compiles [] [.net .msg (.fresh .conn)] = true ∧ compiles [] [.net .peer (.fresh .msg)] = true ∧ compiles [] [.net .peer (.fresh .conn)] = false ∧
    compiles [] [.decl .peer (.fresh .peer), .assign 0 (.fresh .conn)] = false := by decide +kernel

/-- **C101** for C programs: all of them.  (`cTyped`: a program only uses configurations it has made, with settings they have.) -/
theorem C101_c_programs (cs : List Spec.Setup.CCall) (h : Spec.Setup.cTyped [] cs = true) :
    ∃ outs objs, Spec.Setup.run Spec.Setup.strict ⟨[], []⟩ (cs.map (·.stmt)) = some outs ∧
      run ⟨[], []⟩ (cs.map (·.stmt)) = some objs ∧ ConfiguredAs outs objs := by
  obtain ⟨h1, h2⟩ := c_plain cs [] h
  obtain ⟨outs, h3⟩ := run_some _ typed_nil h1 h2
  obtain ⟨h4, objs, h5, h6⟩ := C101_configured_partial _ outs h3
  exact ⟨outs, objs, h4, h5, h6⟩

example : Spec.Setup.cTyped [] [.configNew .peer, .set 0 (.ping 2), .set 0 (.nworker 4), .set 0 (.maxMsgSize 8), .netNew .peer 0, .netNew .msg 0] = true := by
  decide +kernel

/-- The static type is that of the object: settings cannot get lost when a variable is passed on. -/
theorem C101_plain_programs (ss : List Stmt) (hc : compiles [] ss = true) (hp : Spec.Setup.plainRun Spec.Setup.lenient [] ss = true) :
    ∃ outs objs, Spec.Setup.run Spec.Setup.strict ⟨[], []⟩ ss = some outs ∧ run ⟨[], []⟩ ss = some objs ∧ ConfiguredAs outs objs := by
  obtain ⟨outs, h3⟩ := run_some _ typed_nil hc hp
  obtain ⟨h4, objs, h5, h6⟩ := C101_configured_partial _ outs h3
  exact ⟨outs, objs, h4, h5, h6⟩

example : Spec.Setup.plainRun Spec.Setup.lenient [] (setupTour.drop 1) = true ∧ compiles [] (setupTour.drop 1) = true := by decide +kernel

/-- `MsgNetwork(ec, MsgNetwork::Config().max_msg_size(65536).nworker(4))`: the network accepts messages of 1024 bytes only.  The expression in
test/test_p2p_stress.cpp:246-251, `Config(cfg.nworker(2)).conn_timeout(5).ping_period(2).max_msg_size(65536)`: the network pings every 30
seconds and waits 180.  `msg_magic` is undefined.  `bool skip = false; Config().tls_skip_ca_check(&skip)`: certificates are not checked. -/
theorem C101_violated_programs :
    (run ⟨[], []⟩ [.net .msg (.set (.set (.fresh .msg) (.maxMsgSize 65536)) (.nworker 4))]).map (fun l => l.map fun o => (o.m.maxMsgSize, o.c.nworker)) =
      some [(1024, 4)] ∧
    (run ⟨[], []⟩ [.net .peer (.set (.set (.set (.conv .peer (.set (.fresh .conn) (.nworker 2))) (.connTimeout 5)) (.ping 2)) (.maxMsgSize 65536))]).map
      (fun l => l.map fun o => (o.p.connTimeout, o.p.ping, o.m.maxMsgSize, o.c.nworker)) = some [(180, 30, 65536, 2)] ∧
    run ⟨[], []⟩ [.eff (.set (.fresh .msg) (.magic 5))] = none ∧
    (run ⟨[], []⟩ [.net .msg (.set (.fresh .conn) (.skipCa (some false)))]).map (fun l => l.map fun o => o.c.skipCa) = some [true] := by
  decide +kernel

/-- The full statement fails. -/
theorem C101_violated : ¬ C101_statement := by
  intro h
  obtain ⟨outs, objs, h1, h2, h3⟩ := h [.net .msg (.set (.set (.fresh .msg) (.maxMsgSize 65536)) (.nworker 4))] (by decide +kernel)
  have e1 : Spec.Setup.run Spec.Setup.strict ⟨[], []⟩ [.net .msg (.set (.set (.fresh .msg) (.maxMsgSize 65536)) (.nworker 4))] =
    some [(.msg, [.maxMsgSize 65536, .nworker 4])] := by decide +kernel
  rw [e1] at h1
  cases h1
  have e2 := C101_violated_programs.1
  rw [h2] at e2
  simp only [Option.map_some, Option.some.injEq] at e2
  cases objs with
  | nil => cases e2
  | cons o l =>
    have h4 := (h3.2 0 o _ rfl rfl).1.2.2.1 (by simp)
    simp only [List.map_cons, List.cons.injEq, Prod.mk.injEq] at e2
    have h5 := h4.1
    rw [e2.1.1] at h5
    revert h5
    decide +kernel

end Salticidae
