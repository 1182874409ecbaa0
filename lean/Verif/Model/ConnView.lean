import Verif.Model.ConnIO
import Verif.Spec.Frames
/-
Reading the connection model in terms of the wire-format specification: which frame a message object
is, and the receiver's rule.
-/
namespace Salticidae.ConnIO

/-- The frame a message object stands for. -/
def view (e : Endian) (m : Msg ow) : Spec.Frame where
  magic := m.magic.toNat
  opcode := memEnc e m.opcode
  checksum := m.checksum.toNat
  payload := m.payload

/-- The receiver's rule: maximal size as configured; the checksum of a payload is the first four
bytes of its hash. -/
def rule (cfg : Cfg) : Spec.Rule where
  ow := cfg.ow
  max := cfg.maxMsg
  good := fun cs p => cs == (Msg.checksumOf cfg.e cfg.H p).toNat

/-- Configurations for which the receive buffer's byte counter (a size_t) cannot wrap. -/
def Cfg.Ok (cfg : Cfg) : Prop := 0 < cfg.chunk ∧ cfg.maxSegs * cfg.chunk < 2 ^ 63

/-- Header bytes already taken from the buffer for a message whose payload is not complete. -/
def pending (cfg : Cfg) (c : St cfg.ow) : List Byte :=
  if c.inPayload then ((c.msg.serialize cfg.e).take (Msg.headerSize cfg.ow)) else []

/-- Bytes received from the socket and not yet turned into messages. -/
def held (cfg : Cfg) (c : St cfg.ow) : List Byte :=
  pending cfg c ++ c.buf.segs.flatMap fun s => s.data.drop s.off

/-- What has been delivered, as frames. -/
def frames (cfg : Cfg) (c : St cfg.ow) : List Spec.Frame := c.delivered.map (view cfg.e)

end Salticidae.ConnIO
