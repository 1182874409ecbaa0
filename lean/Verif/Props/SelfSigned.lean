import Verif.Spec.SelfSigned
/-!
C129: self-signed certificates.
-/
namespace Salticidae
open SelfSigned Spec.SelfSigned

/-- Making a self-signed certificate, at any time, from any key and names, either throws or gives one that is for this key, signed with it, has these names, and is in force; and no two certificates of one
issuer have the same number. -/
def C129_statement : Prop :=
  (∀ (k : PKey) (country cn : List Nat) (t1 t2 done : Nat) (c : Cert), t1 ≤ t2 → t2 ≤ done → create k country cn t1 t2 = some c → Good k country cn done c) ∧
  (∀ (k k' : PKey) (country cn country' cn' : List Nat) (t1 t2 t1' t2' : Nat) (c c' : Cert), create k country cn t1 t2 = some c → create k' country' cn' t1' t2' = some c' →
    c.issuer = c'.issuer → c.serial = c'.serial → c = c')

/-- "US", "localhost": the default names (crypto.h:236). -/
def us : List Nat := [85, 83]
def localhost : List Nat := [108, 111, 99, 97, 108, 104, 111, 115, 116]

/-- No certificate that is made is ever in force once it is there: it ends when it begins. -/
theorem C129_expired {k : PKey} {country cn : List Nat} {t1 t2 done : Nat} {c : Cert} (h2 : t2 ≤ done) (h : create k country cn t1 t2 = some c) (t : Nat) (ht : done ≤ t) : ¬ InForce c t := by
  cases h
  simp only [InForce, gmtimeAdj]
  omega

/-- So the statement is false, for the plainest certificate. -/
theorem C129_violated : ¬ C129_statement := by
  intro h
  obtain ⟨_, _, _, _, d, hd, hg⟩ := h.1 ⟨7, true⟩ us localhost 100 100 100 _ (Nat.le_refl _) (Nat.le_refl _) rfl
  exact C129_expired (k := ⟨7, true⟩) (country := us) (cn := localhost) (t1 := 100) (t2 := 100) (done := 100) (by omega) rfl 100 (by omega) (hg 100 (by omega) (by omega))

/-- A context that checks certificates refuses it, also if it has been told to trust it; one that does not check them takes it. -/
theorem C129_refused {k : PKey} {country cn : List Nat} {t1 t2 done : Nat} {c : Cert} (h2 : t2 ≤ done) (h : create k country cn t1 t2 = some c) (trusted : List Cert) (t : Nat) (ht : done ≤ t) :
    accepts false trusted c t = false ∧ accepts true trusted c t = true := by
  have := C129_expired h2 h t ht
  refine ⟨?_, rfl⟩
  have hv : validAt c t = false := by
    simp only [InForce] at this
    simp only [validAt, Bool.and_eq_false_iff, decide_eq_false_iff_not]
    omega
  simp [accepts, hv]

/-- Names are left out that are not as OpenSSL wants them: country "USA", no common name; nobody is told. -/
theorem C129_violated_names : ∃ c, create ⟨7, true⟩ [85, 83, 65] [] 100 100 = some c ∧ c.subject = [(.organization, lib)] := ⟨_, rfl, by decide⟩

/-- From a key without its private part, as X509::get_pubkey gives it, the certificate is not signed. -/
theorem C129_violated_unsigned (c : Cert) (country cn : List Nat) (t1 t2 : Nat) : ∃ c', create (getPubkey c) country cn t1 t2 = some c' ∧ c'.signer = none := ⟨_, rfl, rfl⟩

/-- All have the number 1: any two certificates with the same names, whatever their keys, cannot be told apart by issuer and number. -/
theorem C129_violated_serial (k k' : PKey) (country cn : List Nat) (t1 t2 t1' t2' : Nat) : ∃ c c', create k country cn t1 t2 = some c ∧ create k' country cn t1' t2' = some c' ∧
    c.issuer = c'.issuer ∧ c.serial = c'.serial ∧ (k.pub ≠ k'.pub → c ≠ c') :=
  ⟨_, _, rfl, rfl, rfl, rfl, fun h e => h (congrArg Cert.key e)⟩

theorem SelfSigned.name_of (country cn : List Nat) : addEntry (addEntry (addEntry [] .country country) .organization lib) .commonName cn =
    (if fits .country country then [(.country, country)] else []) ++ [(.organization, lib)] ++ (if fits .commonName cn then [(.commonName, cn)] else []) := by
  have : fits .organization lib = true := by decide
  simp only [addEntry, this, if_true]
  split <;> split <;> simp

/-- What holds: the certificate is for the key that was given, its issuer is its subject, and it is signed with the key exactly when the private part is there; … -/
theorem C129_key_partial {k : PKey} {country cn : List Nat} {t1 t2 : Nat} {c : Cert} (h : create k country cn t1 t2 = some c) :
    (getPubkey c).pub = k.pub ∧ c.issuer = c.subject ∧ (c.signer = some k.pub ↔ k.priv = true) ∧ c.notBefore = t1 := by
  cases h
  refine ⟨rfl, rfl, ?_, rfl⟩
  simp only [sign]
  split <;> simp_all

/-- … it has the names that were given, if the country is a code of two letters and the common name has 1 to 64 characters; … -/
theorem C129_names_partial {k : PKey} {country cn : List Nat} {t1 t2 : Nat} {c : Cert} (h : create k country cn t1 t2 = some c) (h1 : Country country) (h2 : Room cn) :
    c.subject = named country cn := by
  cases h
  have f1 : fits .country country = true := by
    simp only [fits, Bool.and_eq_true, beq_iff_eq, List.all_eq_true]
    refine ⟨h1.1, fun x hx => ?_⟩
    rcases h1.2 x hx with h | h <;> simp [printable, h]
  have f2 : fits .commonName cn = true := by
    have : 0 < cn.length := List.length_pos_iff.mpr h2.1
    have := h2.2
    simp only [fits, Bool.and_eq_true, decide_eq_true_eq]
    omega
  simp [name_of, f1, f2, named]

/-- … and only if the country has two characters and the common name 1 to 64. -/
theorem C129_names_only {k : PKey} {country cn : List Nat} {t1 t2 : Nat} {c : Cert} (h : create k country cn t1 t2 = some c) (hs : c.subject = named country cn) : country.length = 2 ∧ Room cn := by
  cases h
  rw [name_of] at hs
  simp only [named] at hs
  cases f1 : fits .country country <;> cases f2 : fits .commonName cn <;> simp [f1, f2] at hs
  simp only [fits, Bool.and_eq_true, beq_iff_eq, decide_eq_true_eq] at f1 f2
  exact ⟨f1.1, fun e => by simp [e] at f2, f2.2⟩

/-- A certificate that is made again for the same key is another one, if a second has passed, and so are its bytes: a peer network, where a peer's id is the hash of these bytes (C88), takes a node that
makes its certificate when it starts for another peer each time. -/
theorem C129_identity {k : PKey} {country cn country' cn' : List Nat} {t1 t2 t1' t2' : Nat} {c c' : Cert} (h : create k country cn t1 t2 = some c) (h' : create k country' cn' t1' t2' = some c') (ht : t1 ≠ t1')
    {der : Cert → List Nat} (hd : ∀ x y, der x = der y → x = y) : der c ≠ der c' := by
  intro e
  have := hd _ _ e
  rw [← (C129_key_partial h).2.2.2, ← (C129_key_partial h').2.2.2, this] at ht
  exact ht rfl

/-- The default names. -/
example : ∃ c, create ⟨7, true⟩ us localhost 100 101 = some c ∧ c.subject = named us localhost ∧ c.signer = some 7 ∧ ¬ InForce c 101 ∧ InForce c 100 :=
  ⟨_, rfl, C129_names_partial (k := ⟨7, true⟩) (t1 := 100) (t2 := 101) rfl ⟨rfl, by decide⟩ ⟨by decide, by decide⟩, rfl, by simp [InForce, gmtimeAdj], by simp [InForce, gmtimeAdj]⟩

end Salticidae
