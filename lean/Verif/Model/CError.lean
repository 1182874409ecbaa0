/-
Model of the error codes and their descriptions (include/salticidae/util.h:33-55, 86-155 and
src/util.cpp:37-101): SalticidaeErrorCode, SALTICIDAE_ERROR_STRINGS, salticidae_strerror,
SalticidaeError and the macros with which the C bindings turn an exception into a SalticidaeCError.

Reading the table outside its bounds is a distinct outcome (`oob`); an `int` left uninitialised is `none`.
`strerror(oscode)` of the operating system is a parameter.
-/
namespace Salticidae
namespace CErr

/-- SalticidaeErrorCode, util.h:86-118, in this order. -/
inductive Code where
  | normal | generic | accept | listen | connect | peerAlreadyExists | peerNotExist | peerNotReady
  | peerNotMatch | clientNotExist | netaddrInvalid | optvalInvalid | optnameAlreadyExists
  | optUnknownAction | configLineTooLong | optInvalid | tlsLoadCert | tlsLoadKey | tlsGeneric | tlsX509
  | tlsKey | tlsKeyNotMatch | tlsNoPeerCert | fd | libuvInit | libuvStart | randSource | connNotReady
  | notAvail | unknown | connOversizedMsg
  deriving DecidableEq, Repr

/-- The value of an enumerator: its position. -/
def Code.toInt (c : Code) : Int := c.ctorIdx

/-- SALTICIDAE_ERROR_STRINGS, util.cpp:37-69. -/
def table : List String := [
  "", "generic", "unable to accept", "unable to listen", "unable to connect", "peer already exists",
  "peer does not exist", "peer is not ready", "peer id does not match the record", "client does not exist",
  "invalid NetAddr format", "invalid OptVal format", "option name already exists", "unknown action",
  "configuration file line too long", "invalid option format", "unable to load cert", "unable to load key",
  "tls generic error", "x509 cert error", "EVP_PKEY error", "tls key does not match the cert",
  "tls fail to get peer cert", "fd error", "libuv init failed", "libuv start failed",
  "rand source is not available, try again", "connection is not ready", "operation not available",
  "unknown error", "oversized message"]

/-- An access to the table. -/
inductive Read where
  | oob
  | str (s : String)
  deriving DecidableEq, Repr

/-- `SALTICIDAE_ERROR_STRINGS[code]`. -/
def readTable (code : Int) : Read :=
  if code < 0 then .oob else
  match table[code.toNat]? with
  | some s => .str s
  | none => .oob

/-- `salticidae_strerror`, util.cpp:95-100. -/
def strerror (code : Int) : Read :=
  if code < 0 ∨ code ≥ table.length then .str "invalid" else readTable code

/-- SalticidaeError, util.h:122-126. -/
structure Err where
  msg : Read
  code : Int
  oscode : Option Int
  deriving DecidableEq, Repr

/-- The constructor from a format, util.h:130-133: `oscode` is not initialised. -/
def Err.ofFormat (text : String) : Err := ⟨.str text, Code.generic.toInt, none⟩

/-- The constructor from codes, util.h:135-140. -/
def Err.ofCode (osStr : Int → String) (code : Int) (oscode : Int := 0) : Err :=
  ⟨if oscode ≠ 0 then
      match readTable code with
      | .str s => .str (s ++ ": " ++ osStr oscode)
      | .oob => .oob
    else readTable code, code, some oscode⟩

/-- SalticidaeCError, util.h:33-36. -/
structure CError where
  code : Int
  oscode : Option Int
  deriving DecidableEq, Repr

/-- How the body of a C binding ends. -/
inductive Outcome where
  | returns
  | throwsSalticidae (e : Err)
  | throwsStd            -- another std::exception
  deriving DecidableEq, Repr

/-- SALTICIDAE_CERROR_TRY / SALTICIDAE_CERROR_CATCH, util.h:47-53, with util.cpp:81-93 and
`get_cerr`, util.h:146-151: the value of `*cerror` after the call. -/
def report : Outcome → CError
  | .returns => ⟨Code.normal.toInt, some 0⟩
  | .throwsSalticidae e => ⟨e.code, e.oscode⟩
  | .throwsStd => ⟨Code.unknown.toInt, some 0⟩

end CErr
end Salticidae
