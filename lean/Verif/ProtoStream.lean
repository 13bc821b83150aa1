import Mathlib.Data.List.Basic
import Mathlib.Tactic.Common

/-!
Model of `cartographer/io/proto_stream.cc`: the file format of saved mapping states, byte by byte.

Simplifications: a file is its list of bytes; a write that fails at some byte leaves a prefix of the bytes. Serialization of a
message and gzip are abstract functions (`Codec`) with their inverse. Allocating a buffer larger than `maxAlloc` bytes throws
and, like an exception of gunzip for corrupt data, is an abort (`none`).
-/

namespace Verif.ProtoStream

/-- Protobuf serialization (`SerializeToString`, `ParseFromString`) and gzip (common/port.h 50-69). `gunzip` yields `none` if
boost throws. -/
structure Codec (M : Type) where
  serialize : M → List UInt8
  parse : List UInt8 → Option M
  gzip : List UInt8 → List UInt8
  gunzip : List UInt8 → Option (List UInt8)
  maxAlloc : Nat

/-- The inverse pairs, and that a compressed message fits into memory. -/
structure Codec.Lawful {M : Type} (c : Codec M) : Prop where
  parse_serialize : ∀ m, c.parse (c.serialize m) = some m
  gunzip_gzip : ∀ b, c.gunzip (c.gzip b) = some b
  fits : ∀ m, (c.gzip (c.serialize m)).length ≤ c.maxAlloc
  maxAlloc_lt : c.maxAlloc < 18446744073709551616

/-- proto_stream.cc 27. -/
def kMagic : Nat := 0x7b1d1f7b5bf501db

/-- `WriteSizeAsLittleEndian` (29-34): the loop over `i`; `n` is the number of bytes left to put. -/
def writeSize : Nat → Nat → List UInt8
  | 0, _ => []
  | n + 1, size => UInt8.ofNat (size &&& 0xff) :: writeSize n (size >>> 8)

/-- An `std::ifstream`: the bytes left and the state flags (`badbit` is never set). -/
structure IStream where
  rest : List UInt8
  eof : Bool := false
  fail : Bool := false
deriving DecidableEq, Repr

/-- `good()`. -/
def IStream.good (s : IStream) : Bool := !s.eof && !s.fail

/-- `istream::get()`: the byte, or `-1` with `eofbit` and `failbit` at the end; on a stream which is not good `failbit` is set
and `-1` returned. -/
def get (s : IStream) : Int × IStream :=
  if s.good then
    match s.rest with
    | [] => (-1, { s with eof := true, fail := true })
    | b :: r => (b.toNat, { s with rest := r })
  else (-1, { s with fail := true })

/-- Number of values of a `uint64`. -/
def word : Nat := 18446744073709551616

/-- Conversion of an `int` to `uint64`. -/
def toU64 (x : Int) : Nat := (x % 18446744073709551616).toNat

/-- The loop of `ReadSizeAsLittleEndian` (36-43), `n` iterations left. -/
def readSizeLoop : Nat → Nat → IStream → Nat × IStream
  | 0, size, s => (size, s)
  | n + 1, size, s =>
    let (b, s') := get s
    readSizeLoop n (((size >>> 8) + ((toU64 b) <<< 56) % word) % word) s'

/-- `ReadSizeAsLittleEndian` (36-43): the value if the stream has not failed. -/
@[irreducible] def readSize (s : IStream) : Option Nat × IStream :=
  let (size, s') := readSizeLoop 8 0 s
  (if s'.fail then none else some size, s')

/-- `istream::read(_, n)`: the bytes if all `n` could be read; otherwise `eofbit` and `failbit` are set. -/
def readBytes (n : Nat) (s : IStream) : Option (List UInt8) × IStream :=
  if s.good then
    if n ≤ s.rest.length then (some (s.rest.take n), { s with rest := s.rest.drop n })
    else (none, { rest := [], eof := true, fail := true })
  else (none, { s with fail := true })

variable {M : Type}

/-- `ProtoStreamWriter::Write` (52-57) and `WriteProto` (59-63): the bytes appended. -/
def record (c : Codec M) (m : M) : List UInt8 :=
  let data := c.gzip (c.serialize m)
  writeSize 8 data.length ++ data

/-- The file of a writer that has written `ms` (constructor 47-50, then `WriteProto` for each). -/
def writeFile (c : Codec M) (ms : List M) : List UInt8 := writeSize 8 kMagic ++ ms.flatMap (record c)

/-- The constructor of `ProtoStreamReader` (70-77); `none` is the failing `CHECK`. -/
def openFile (file : List UInt8) : Option IStream :=
  match readSize { rest := file } with
  | (none, _) => none
  | (some magic, s) => if magic = kMagic ∧ s.good then some s else none

/-- `ProtoStreamReader::Read` (79-90) and `ReadProto` (92-95): outer `none` is an abort, inner `none` is the result `false`. -/
def readProto (c : Codec M) (s : IStream) : Option (Option M × IStream) :=
  match readSize s with
  | (none, s') => some (none, s')
  | (some size, s') =>
    if c.maxAlloc < size then none
    else
      match readBytes size s' with
      | (none, s'') => some (none, s'')
      | (some data, s'') =>
        match c.gunzip data with
        | none => none
        | some raw => some (c.parse raw, s'')

/-- The loop every user of the reader has, `while (reader.ReadProto(&proto))`: the messages and `eof()` at the end. It runs at
most `fuel` times. -/
def readLoop (c : Codec M) : Nat → IStream → Option (List M × Bool)
  | 0, _ => none
  | fuel + 1, s =>
    match readProto c s with
    | none => none
    | some (none, s') => some ([], s'.eof)
    | some (some m, s') =>
      match readLoop c fuel s' with
      | none => none
      | some (ms, e) => some (m :: ms, e)

/-- Open a file and read it to the end. Every successful read consumes at least the eight bytes of the size, so the length of
the file is enough fuel. -/
def readFile (c : Codec M) (file : List UInt8) : Option (List M × Bool) :=
  match openFile file with
  | none => none
  | some s => readLoop c (file.length + 1) s

end Verif.ProtoStream
