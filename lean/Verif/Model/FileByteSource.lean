import Verif.Model.Serial
/-
Model of reading a block of a file (/repo/util/FileByteSource.cpp) and of the loop that
sends it (/repo/SenderThread.cpp:358-407).
-/
namespace Wdt

/-- `kDiskBlockSize` (CommonImpl.h:17). -/
def kDiskBlock : Nat := 4096

/-- The fields of a `FileByteSource` that `read` uses (FileByteSource.h:113-137).
`isOpen`: `fd_ >= 0`. -/
structure FSrc where
  size : Int
  offset : Int
  bytesRead : Int := 0
  aligned : Bool
  isOpen : Bool := true
deriving DecidableEq, Repr

/-- What `pread` answers (FileByteSource.cpp:124-128): an error, or a number of bytes. -/
inductive PRead where
  | err
  | got (n : Nat)
deriving DecidableEq, Repr

/-- The operating system: the answer to the `k`-th `pread`, of so many bytes at a
position. -/
abbrev ReadOS := Nat → Int → Int → PRead

/-- `open` (FileByteSource.cpp:68-97) of a block that is not to be deleted; `ok`: the file
could be opened. -/
def FSrc.open (s : FSrc) (direct ok : Bool) : FSrc :=
  { s with bytesRead := 0, aligned := s.aligned || direct, isOpen := ok }

/-- `hasError` (FileByteSource.h:82-84) of a block that is not to be deleted. -/
def FSrc.hasError (s : FSrc) : Bool := !s.isOpen

/-- `finished` (FileByteSource.h:77-79). -/
def FSrc.finished (s : FSrc) : Bool := s.bytesRead == s.size && !s.hasError

/-- `advanceOffset` (FileByteSource.cpp:99-102). -/
def FSrc.advance (s : FSrc) (n : Int) : FSrc := { s with offset := s.offset + n, size := s.size - n }

/-- `offsetRemainder` (FileByteSource.cpp:110-113). -/
def FSrc.remainder (s : FSrc) : Int := if s.aligned then (s.offset + s.bytesRead).tmod kDiskBlock else 0

/-- `logicalRead` (FileByteSource.cpp:114-115). -/
def FSrc.logical (s : FSrc) (buf : Bytes) : Int := min (buf.length - s.remainder) (s.size - s.bytesRead)

/-- `physicalRead` (FileByteSource.cpp:116-121). -/
def FSrc.physical (s : FSrc) (buf : Bytes) : Int :=
  if s.aligned then ((s.logical buf + s.remainder + kDiskBlock - 1).tdiv kDiskBlock) * kDiskBlock else s.logical buf

/-- `seekPos` (FileByteSource.cpp:122). -/
def FSrc.seekPos (s : FSrc) : Int := s.offset + s.bytesRead - s.remainder

/-- What `pread` leaves in the buffer: the bytes of the file, over the old contents. -/
def preadFill (file buf : Bytes) (pos : Int) (n : Nat) : Bytes :=
  (file.drop pos.toNat).take n ++ buf.drop n

/-- The result of `read`: the new state, the buffer, and the returned bytes with their
`size`; `none` is the null pointer. -/
structure FRead where
  src : FSrc
  buf : Bytes
  out : Option (Int × Bytes)

/-- `read` (FileByteSource.cpp:104-163).  The result is a position in the buffer and a
size; the bytes there are what the caller sends. -/
def FSrc.read (s : FSrc) (file buf : Bytes) (answer : Int → Int → PRead) : FRead :=
  if s.hasError || s.finished then ⟨s, buf, none⟩
  else match answer s.seekPos (s.physical buf) with
    | .err => ⟨{ s with isOpen := false }, buf, none⟩
    | .got 0 => ⟨{ s with isOpen := false }, buf, none⟩
    | .got (n + 1) =>
      let buf' := preadFill file buf s.seekPos (n + 1)
      let size := min ((n + 1 : Nat) - s.remainder) (s.logical buf)
      ⟨{ s with bytesRead := s.bytesRead + size }, buf', some (size, (buf'.drop s.remainder.toNat).take size.toNat)⟩

/-- How the loop of `sendOneByteSource` ends.  `crash`: `WDT_CHECK(buffer && size > 0)`
(SenderThread.cpp:369) fails. -/
inductive SendEnd where
  | sent (b : Bytes)
  | readError (b : Bytes)
  | crash
  | running
deriving DecidableEq, Repr

/-- The loop of `sendOneByteSource` (SenderThread.cpp:358-407): the bytes written to the
socket.  `k` counts the reads.  Left out: the checksum, throttling, and failing writes to
the socket, after which the loop is left. -/
def sendLoop (file : Bytes) (os : ReadOS) : Nat → Nat → FSrc → Bytes → Bytes → SendEnd
  | 0, _, _, _, _ => .running
  | fuel + 1, k, s, buf, acc =>
    if s.finished then .sent acc
    else
      let r := s.read file buf (os k)
      if r.src.hasError then .readError acc
      else match r.out with
        | none => .crash
        | some (size, bytes) => if size > 0 then sendLoop file os fuel (k + 1) r.src r.buf (acc ++ bytes) else .crash

end Wdt
