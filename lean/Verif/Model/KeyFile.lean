/-
Model of key and certificate files (crypto.h:122-132, 166-185, 217-223, 254-272, 301-307): PKey::save_privkey_to_file, create_privkey_from_pem_file, X509::save_to_file, create_from_pem_file.
Keys and certificates are handled alike; K is either.

Files are lists of bytes on a disk with limited room; a buffered FILE writes them in pieces.  What OpenSSL makes of a file (PEM_write_*, PEM_read_*) is a parameter.

Simplified: names of files are numbers; the resources that are lost on errors (C100) are left out; one program uses the files.
-/
namespace Salticidae
namespace KeyFile

abbrev Bytes := List Nat

/-- What PEM_read_* finds in a file: nothing it can parse; an object; an object that was encrypted with a password (`none`: that cannot be parsed once it is decrypted). -/
inductive Parsed (K : Type) where
  | bad
  | plain (k : K)
  | locked (pw : Bytes) (k : Option K)

/-- PEM_write_* and PEM_read_* of OpenSSL. -/
structure Codec (K : Type) where
  text : K → Bytes
  parse : Bytes → Parsed K

/-- A disk: its files, the bytes that still fit on it, and the names that can be opened for writing. -/
structure Disk where
  file : Nat → Option Bytes
  free : Nat
  writable : Nat → Bool

/-- What happens to the disk. -/
inductive Op where
  | create (p : Nat)                -- fopen(p, "wb")
  | append (p : Nat) (bs : Bytes)   -- write(): as much as fits
  deriving DecidableEq, Repr

def upd (f : Nat → Option Bytes) (p : Nat) (x : Option Bytes) : Nat → Option Bytes := fun q => if q = p then x else f q

def Disk.op (d : Disk) : Op → Disk
  | .create p => { d with file := upd d.file p (some []), free := d.free + ((d.file p).getD []).length }
  | .append p bs => { d with file := upd d.file p (some ((d.file p).getD [] ++ bs.take d.free)), free := d.free - bs.length }

def Disk.ops (d : Disk) (os : List Op) : Disk := os.foldl Disk.op d

/-- The bytes a FILE with a buffer of b bytes writes before it is closed: whole buffers. -/
def early (b : Nat) (t : Bytes) : Bytes := t.take (t.length / b * b)

/-- … and when it is closed. -/
def late (b : Nat) (t : Bytes) : Bytes := t.drop (t.length / b * b)

inductive Res where
  | returned | thrown | ub
  deriving DecidableEq, Repr

/-- save_privkey_to_file, crypto.h:217-223, save_to_file, crypto.h:301-307, of an object with text t: what happens to the disk.  (If fopen fails nothing does.) -/
def saveOps (d : Disk) (b : Nat) (p : Nat) (t : Bytes) : List Op :=
  if d.writable p then [.create p, .append p (early b t), .append p (late b t)] else []

/-- … and what the caller sees: the result of fopen is not checked (PEM_write with a null FILE); that of PEM_write is, which knows only of what was written so far; that of fclose is not. -/
def saveRes (d : Disk) (b : Nat) (p : Nat) (t : Bytes) : Res :=
  if d.writable p = false then .ub
  else if (d.op (.create p)).free < (early b t).length then .thrown
  else .returned

/-- strlen(_passwd), of a std::string (crypto.h:127, 173, 261). -/
def cstr (w : Bytes) : Bytes := w.takeWhile (· ≠ 0)

/-- PEM_BUFSIZE: OpenSSL's buffer for passwords. -/
def pemBuf : Nat := 1024

inductive Loaded (K : Type) where
  | key (k : K)
  | thrown
  | ub
  deriving DecidableEq, Repr

/-- create_privkey_from_pem_file, crypto.h:166-185, create_from_pem_file, crypto.h:254-272, with the password callbacks crypto.h:122-132: OpenSSL calls them only if the object is encrypted;
an exception thrown in one goes through OpenSSL's C functions, which is undefined. -/
def load {K : Type} (c : Codec K) (d : Disk) (p : Nat) (pw : Option Bytes) : Loaded K :=
  match d.file p with
  | none => .thrown
  | some bs => match c.parse bs with
    | .bad => .thrown
    | .plain k => .key k
    | .locked q ko => match pw with
      | none => .thrown
      | some w =>
        if pemBuf < (cstr w).length + 1 then .ub
        else if cstr w = q then match ko with
          | some k => .key k
          | none => .thrown
        else .thrown

end KeyFile
end Salticidae
