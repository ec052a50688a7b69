import Verif.Model.ReceiverStream

/-!
# The checksum of a block

With checksums on, a sender thread folds `folly::crc32c` over what it sends of a block,
starting from 0 (SenderThread.cpp:357, 369-372), and sends the result in the footer
(SenderThread.cpp:424-440); the receiver thread does the same over what it writes,
buffer by buffer (ReceiverThread.cpp:506, 513-516, 559-562), and compares
(ReceiverThread.cpp:621-656).  The other models take the update of the checksum by one byte
as a parameter; this file says what `folly::crc32c` is: the CRC with Castagnoli's polynomial
`0x1EDC6F41`, bits from the lowest, neither start value nor result complemented.

Not in /repo: folly's code (`folly/hash/Checksum.cpp`, which uses the processor's instruction
`crc32` where there is one).  The definition below is the published one; its value for
the standard check string is compared in `Props/Crc.lean`.
-/

namespace Wdt

/-- Castagnoli's polynomial, lowest coefficient in the highest bit (folly, outside /repo; called at
SenderThread.cpp:370-371). -/
def crcPoly : BitVec 32 := 0x82F63B78#32

/-- The register moves on by one bit (folly, outside /repo; called at SenderThread.cpp:370-371). -/
def crcShift (s : BitVec 32) : BitVec 32 :=
  if s.getLsbD 0 then (s >>> 1) ^^^ crcPoly else s >>> 1

/-- One bit of the data enters the register (folly, outside /repo; called at
SenderThread.cpp:370-371). -/
def crcBit (s : BitVec 32) (x : Bool) : BitVec 32 :=
  crcShift (s ^^^ (if x then 1#32 else 0#32))

/-- The bits of a byte, lowest first (the order of the bits in folly, outside /repo; called at
SenderThread.cpp:370-371). -/
def byteBits (b : UInt8) : List Bool := (List.range 8).map (fun i => b.toBitVec.getLsbD i)

/-- `folly::crc32c(data, size, start)` on the 32 bits of the register (called at
SenderThread.cpp:370-371, ReceiverThread.cpp:514-515, 560-561). -/
def crcBytes (s : BitVec 32) (data : Bytes) : BitVec 32 :=
  (data.flatMap byteBits).foldl crcBit s

/-- One byte, with the register in the `int32_t checksum` of the two threads
(SenderThread.cpp:357, 370-371, ReceiverThread.cpp:506, 514-515, 560-561): the conversions
between `int32_t` and `uint32_t` keep the bits. -/
def crc32c (x : Int) (b : UInt8) : Int := (crcBytes (BitVec.ofInt 32 x) [b]).toInt

end Wdt
