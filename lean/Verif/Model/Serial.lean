/-
Model of /repo/util/SerializationUtil.{h,cpp}: byte ranges, varints, zigzag,
fixed width integers and strings.

Conventions.
* `Bytes` is the content of a C++ `char` array, one `UInt8` per `char`.
* `uint64_t` values are `Nat` (< 2^64), `int64_t` values are `Int`.
* An encoder is a function of the whole destination array and the current
  offset (`int64_t& off`).  It returns the C++ `bool`, the new array and the new
  offset, or a `Fault`.
* A decoder is a function of a `folly::ByteRange`, represented by the bytes it
  spans.  It returns `none` for C++ `false`, and the range afterwards (C++
  decoders may advance the range even when they fail).
-/
namespace Wdt

/-- Content of a char array / std::string. -/
abbrev Bytes := List UInt8

/-- Outcomes that are not ordinary return values: undefined behaviour
(out-of-range memory access), a failed `WDT_CHECK` (process abort;
/repo/ErrorCodes.h:14-50 `WDT_CHECK` = glog `CHECK`) and a loop that never ends. -/
inductive Fault where
  | ub
  | check
  | hang
deriving DecidableEq, Repr

/-- Decidable equality of outcomes (proof-side convenience, no counterpart in
the code). -/
instance instDecidableEqExcept {ε α : Type} [DecidableEq ε] [DecidableEq α] :
    DecidableEq (Except ε α)
  | .ok a, .ok b => if h : a = b then isTrue (by rw [h]) else isFalse (by simpa using h)
  | .error a, .error b => if h : a = b then isTrue (by rw [h]) else isFalse (by simpa using h)
  | .ok _, .error _ => isFalse (by simp)
  | .error _, .ok _ => isFalse (by simp)

/-- Largest `int64_t` (<cstdint>), used at SerializationUtil.cpp:79. -/
def int64Max : Int := 9223372036854775807
/-- Largest `int32_t`, used at SerializationUtil.cpp:41,94. -/
def int32Max : Int := 2147483647
/-- Smallest `int32_t`, used at SerializationUtil.cpp:41. -/
def int32Min : Int := -2147483648

/-- C++ conversion of an integer to `uint64_t` / `size_t` (modulo 2^64), used
where an `int64_t max` is passed as `size_t datasz`
(e.g. Protocol.cpp:270, SerializationUtil.h:218). -/
def toU64 (i : Int) : Nat := (i % 18446744073709551616).toNat

/-- C++ conversion of a `uint64_t` to `int64_t`
(two's complement; SerializationUtil.h:74, Protocol.cpp:242). -/
def toI64 (n : Nat) : Int :=
  if n % 18446744073709551616 < 9223372036854775808
  then (n % 18446744073709551616 : Nat)
  else (n % 18446744073709551616 : Nat) - 18446744073709551616

/-! ### Encoders -/

/-- `bool f(char* dest, ..., int64_t& off, ...)`. -/
abbrev Enc := Bytes → Int → Except Fault (Bool × Bytes × Int)

/-- `*(dest + p) = b` for a `dest` pointing at an array of `buf.length` bytes;
a store outside the array is undefined behaviour. -/
def storeByte (buf : Bytes) (p : Int) (b : UInt8) : Except Fault Bytes :=
  if 0 ≤ p ∧ p < (buf.length : Int) then .ok (buf.set p.toNat b) else .error .ub

/-- memcpy of `bs` to `dest + p` (SerializationUtil.cpp:141 `storeUnaligned`,
:168 `memcpy`); undefined behaviour if any byte falls outside the array. -/
def storeBytes (buf : Bytes) (p : Int) (bs : Bytes) : Except Fault Bytes :=
  if bs = [] then .ok buf
  else if 0 ≤ p ∧ p + bs.length ≤ (buf.length : Int) then
    .ok (buf.take p.toNat ++ bs ++ buf.drop (p.toNat + bs.length))
  else .error .ub

/-- C++ short-circuit `e1 && e2` on two encoders sharing `dest` and `off`. -/
def Enc.and (e1 e2 : Enc) : Enc := fun buf off =>
  match e1 buf off with
  | .error f => .error f
  | .ok (false, buf', off') => .ok (false, buf', off')
  | .ok (true, buf', off') => e2 buf' off'

/-- Encoder that writes nothing and succeeds (an `if` whose branch is not
taken). -/
def Enc.skip : Enc := fun buf off => .ok (true, buf, off)

/-- Body of the loop at SerializationUtil.h:125-143, with `fuel` = number of
further iterations allowed by `++count < 9` and `p` the write position.
Result: success flag, array, end position. -/
def encVarLoop (datasz : Nat) : Nat → Bytes → Int → Nat → Except Fault (Bool × Bytes × Int)
  | 0, buf, p, v =>
    if p ≥ (datasz : Int) then .ok (false, buf, p)
    else match storeByte buf p (UInt8.ofNat (v % 256)) with
      | .error f => .error f
      | .ok buf' => .ok (true, buf', p + 1)
  | fuel + 1, buf, p, v =>
    if v ≥ 128 then
      if p ≥ (datasz : Int) then .ok (false, buf, p)
      else match storeByte buf p (UInt8.ofNat (0x80 ||| (v &&& 0x7f))) with
        | .error f => .error f
        | .ok buf' => encVarLoop datasz fuel buf' (p + 1) (v >>> 7)
    else
      if p ≥ (datasz : Int) then .ok (false, buf, p)
      else match storeByte buf p (UInt8.ofNat (v % 256)) with
        | .error f => .error f
        | .ok buf' => .ok (true, buf', p + 1)

/-- `encodeVarU64(char*, size_t, int64_t&, uint64_t)`
(SerializationUtil.h:116-144).  On failure `pos` is unchanged but bytes may
have been written. -/
def encodeVarU64 (datasz : Nat) (v : Nat) : Enc := fun buf pos =>
  if pos < 0 then .ok (false, buf, pos)
  else match encVarLoop datasz 8 buf pos v with
    | .error f => .error f
    | .ok (false, buf', _) => .ok (false, buf', pos)
    | .ok (true, buf', p) => .ok (true, buf', p)

/-- `encodeVarU64(std::string&, uint64_t)` (SerializationUtil.h:89-97): the
bytes appended. -/
def varBytesLoop : Nat → Nat → Bytes
  | 0, v => [UInt8.ofNat (v % 256)]
  | fuel + 1, v =>
    if v ≥ 128 then UInt8.ofNat (0x80 ||| (v &&& 0x7f)) :: varBytesLoop fuel (v >>> 7)
    else [UInt8.ofNat (v % 256)]

/-- The string version started with `count = 0`
(SerializationUtil.h:89-97). -/
def encodeVarU64Str (v : Nat) : Bytes := varBytesLoop 8 v

/-- `encodeZigZag` (SerializationUtil.h:66-71) on 64-bit vectors. -/
def encodeZigZag (val : BitVec 64) : BitVec 64 := (val <<< 1) ^^^ (val.sshiftRight 63)

/-- `decodeZigZag` (SerializationUtil.h:73-75). -/
def decodeZigZag (val : BitVec 64) : BitVec 64 := (val >>> 1) ^^^ (-(val &&& 1#64))

/-- `encodeVarI64(char*, size_t, int64_t&, int64_t)`
(SerializationUtil.h:158-160). -/
def encodeVarI64 (datasz : Nat) (sv : Int) : Enc :=
  encodeVarU64 datasz (encodeZigZag (BitVec.ofInt 64 sv)).toNat

/-- `encodeVarI64C` (SerializationUtil.h:214-219): aborts on negative values. -/
def encodeVarI64C (datasz : Nat) (v : Int) : Enc := fun buf pos =>
  if v < 0 then .error .check else encodeVarU64 datasz v.toNat buf pos

/-- Little-endian bytes of the low `8*n` bits of an integer
(`folly::Endian::little` + `storeUnaligned`, SerializationUtil.cpp:141). -/
def leBytes : Nat → Int → Bytes
  | 0, _ => []
  | n + 1, v => UInt8.ofNat (v % 256).toNat :: leBytes n (v / 256)

/-- `encodeIntFixedLength<T>` with `sizeof(T) = n`
(SerializationUtil.cpp:133-144).  `off` is not checked for being negative. -/
def encodeIntFixed (n : Nat) (sz : Int) (val : Int) : Enc := fun buf off =>
  if off + n > sz then .ok (false, buf, off)
  else match storeBytes buf off (leBytes n val) with
    | .error f => .error f
    | .ok buf' => .ok (true, buf', off + n)

/-- `encodeString` (SerializationUtil.cpp:158-171): note that when the length
fits and the characters do not, `off` has already moved past the length. -/
def encodeString (sz : Int) (str : Bytes) : Enc := fun buf off =>
  match encodeVarU64 (toU64 sz) str.length buf off with
  | .error f => .error f
  | .ok (false, buf', off') => .ok (false, buf', off')
  | .ok (true, buf', off') =>
    if off' + str.length > sz then .ok (false, buf', off')
    else match storeBytes buf' off' str with
      | .error f => .error f
      | .ok buf'' => .ok (true, buf'', off' + str.length)

/-- `if (off >= max) return false; dest[off++] = b;`
(Protocol.cpp:151-154 and 475-478). -/
def encodeByteChecked (max : Int) (b : UInt8) : Enc := fun buf off =>
  if off ≥ max then .ok (false, buf, off)
  else match storeByte buf off b with
    | .error f => .error f
    | .ok buf' => .ok (true, buf', off + 1)

/-! ### Decoders -/

/-- `bool f(ByteRange& br, T& res)`. -/
abbrev Dec (α : Type) := Bytes → Option α × Bytes

/-- C++ `d1 && d2` (continue with the second decoder only on success). -/
def Dec.bind {α β : Type} (d : Dec α) (f : α → Dec β) : Dec β := fun br =>
  match d br with
  | (none, br') => (none, br')
  | (some a, br') => f a br'

/-- Decoder that consumes nothing and succeeds. -/
def Dec.pure {α : Type} (a : α) : Dec α := fun br => (some a, br)

/-- Decoder that fails without consuming. -/
def Dec.fail {α : Type} : Dec α := fun br => (none, br)

/-- `makeByteRange(char* dest, int64_t sz, int64_t off)`
(SerializationUtil.cpp:21-26) for a `dest` array of `buf.length` bytes.  The
function checks `off >= 0` and `sz >= 0` but not `off <= sz`; with `off > sz`
the size argument wraps around, and the resulting range reaches outside the
array, which the model reports as undefined behaviour. -/
def makeByteRange (buf : Bytes) (sz off : Int) : Except Fault Bytes :=
  if off < 0 ∨ sz < 0 then .error .check
  else if off > sz ∨ sz > (buf.length : Int) then .error .ub
  else .ok ((buf.take sz.toNat).drop off.toNat)

/-- Value of a (signed) `char` converted to `uint64_t`
(SerializationUtil.h:205 `static_cast<uint64_t>(*p++)`). -/
def sextByte (b : UInt8) : Nat :=
  if b.toNat < 128 then b.toNat else 18446744073709551616 - 256 + b.toNat

/-- Loop of `decodeVarU64` (SerializationUtil.h:195-205); `fuel` = remaining
iterations allowed by `++count < 9`; the caller has checked `p < end`, which
here is the pattern `b :: rest`; the empty pattern is the `p >= end` test at
line 199.  `uint64_t` arithmetic is modulo 2^64. -/
def decVarLoop : Nat → Nat → Nat → Bytes → Option (Nat × Bytes)
  | _, _, _, [] => none
  | 0, shift, val, b :: rest =>
    some ((val ||| (sextByte b <<< shift)) % 18446744073709551616, rest)
  | fuel + 1, shift, val, b :: rest =>
    if b.toNat &&& 0x80 ≠ 0 then
      decVarLoop fuel (shift + 7)
        ((val ||| ((b.toNat &&& 0x7f) <<< shift)) % 18446744073709551616) rest
    else some ((val ||| (sextByte b <<< shift)) % 18446744073709551616, rest)

/-- `decodeUInt64` (SerializationUtil.cpp:62-71) = `decodeVarU64`
(SerializationUtil.h:175-209) on the range, advancing only on success. -/
def decodeUInt64 : Dec Nat := fun br =>
  match decVarLoop 8 0 0 br with
  | none => (none, br)
  | some (v, rest) => (some v, rest)

/-- `decodeInt64` (SerializationUtil.cpp:51-60, SerializationUtil.h:234-242). -/
def decodeInt64 : Dec Int := fun br =>
  match decodeUInt64 br with
  | (none, br') => (none, br')
  | (some v, br') => (some (decodeZigZag (BitVec.ofNat 64 v)).toInt, br')

/-- `decodeInt32` (SerializationUtil.cpp:34-49): the range is restored when the
value does not fit. -/
def decodeInt32 : Dec Int := fun br =>
  match decodeInt64 br with
  | (none, br') => (none, br')
  | (some v, br') => if v > int32Max ∨ v < int32Min then (none, br) else (some v, br')

/-- `decodeInt64C` (SerializationUtil.cpp:73-85): the range stays advanced when
the value is too large. -/
def decodeInt64C : Dec Int := fun br =>
  match decodeUInt64 br with
  | (none, br') => (none, br')
  | (some v, br') => if (v : Int) > int64Max then (none, br') else (some v, br')

/-- `decodeInt32C` (SerializationUtil.cpp:87-102): the range is restored only
when the 64-bit value was accepted but does not fit 31 bits. -/
def decodeInt32C : Dec Int := fun br =>
  match decodeInt64C br with
  | (none, br') => (none, br')
  | (some v, br') => if v > int32Max ∨ v < 0 then (none, br) else (some v, br')

/-- Unsigned value of little-endian bytes (`loadUnaligned` +
`Endian::little`, SerializationUtil.cpp:110-111). -/
def leNat : Bytes → Nat
  | [] => 0
  | b :: bs => b.toNat + 256 * leNat bs

/-- `decodeIntFixedLength<T>` with `sizeof(T) = n`
(SerializationUtil.cpp:104-118): negative values are rejected after the range
was advanced. -/
def decodeIntFixed (n : Nat) : Dec Int := fun br =>
  if br.length < n then (none, br)
  else
    let u := leNat (br.take n)
    if 2 * u ≥ 256 ^ n then (none, br.drop n) else (some (u : Int), br.drop n)

/-- `decodeString` (SerializationUtil.cpp:173-186). -/
def decodeString : Dec Bytes := fun br =>
  match decodeUInt64 br with
  | (none, br') => (none, br')
  | (some len, br') =>
    if len > br'.length then (none, br') else (some (br'.take len), br'.drop len)

/-- `if (br.empty()) return false; x = br.front(); br.pop_front();`
(Protocol.cpp:180-188, 509-517). -/
def decodeByte : Dec UInt8 := fun br =>
  match br with
  | [] => (none, br)
  | b :: rest => (some b, rest)

/-! ### Pointer level decoders

The decoders above take the bytes a `ByteRange` spans.  The three primitives
that touch memory are modelled again here at pointer level, where a load outside
the array is undefined behaviour; `Verif/Props/Serial.lean` proves that the two
levels agree and that no such load happens. -/

/-- `*(data + p)` for an array of `mem.length` bytes. -/
def loadByte (mem : Bytes) (p : Int) : Except Fault UInt8 :=
  if 0 ≤ p ∧ p < (mem.length : Int) then
    match mem[p.toNat]? with
    | some b => .ok b
    | none => .error .ub
  else .error .ub

/-- `n` consecutive loads (`loadUnaligned`, `string::assign`;
SerializationUtil.cpp:110, 183). -/
def loadBytes (mem : Bytes) (p : Int) : Nat → Except Fault Bytes
  | 0 => .ok []
  | n + 1 => match loadByte mem p with
    | .error f => .error f
    | .ok b => match loadBytes mem (p + 1) n with
      | .error f => .error f
      | .ok bs => .ok (b :: bs)

/-- Loop of `decodeVarU64` at SerializationUtil.h:195-208 with explicit loads;
`stop` is the pointer `end`, both relative to the start of `mem`. -/
def decVarPtrLoop (mem : Bytes) (stop : Int) :
    Nat → Nat → Nat → Int → Except Fault (Option (Nat × Int))
  | 0, shift, val, p => match loadByte mem p with
    | .error f => .error f
    | .ok b => .ok (some ((val ||| (sextByte b <<< shift)) % 18446744073709551616, p + 1))
  | fuel + 1, shift, val, p => match loadByte mem p with
    | .error f => .error f
    | .ok b =>
      if b.toNat &&& 0x80 ≠ 0 then
        if p + 1 ≥ stop then .ok none
        else decVarPtrLoop mem stop fuel (shift + 7)
          ((val ||| ((b.toNat &&& 0x7f) <<< shift)) % 18446744073709551616) (p + 1)
      else .ok (some ((val ||| (sextByte b <<< shift)) % 18446744073709551616, p + 1))

/-- `decodeVarU64(data, datalen, pos, res)` (SerializationUtil.h:175-209) where
`data = mem + base`.  Result: value and new `pos`. -/
def decodeVarU64Ptr (mem : Bytes) (base datalen pos : Int) : Except Fault (Option (Nat × Int)) :=
  if pos < 0 then .ok none
  else if base + pos ≥ base + datalen then .ok none
  else match decVarPtrLoop mem (base + datalen) 8 0 0 (base + pos) with
    | .error f => .error f
    | .ok none => .ok none
    | .ok (some (v, p)) => .ok (some (v, p - base))

/-- `decodeString(ByteRange&, string&)` (SerializationUtil.cpp:173-186) on the
range `[start, stop)` of `mem`.  Result: string and new start. -/
def decodeStringPtr (mem : Bytes) (start stop : Int) : Except Fault (Option (Bytes × Int)) :=
  match decodeVarU64Ptr mem start (stop - start) 0 with
  | .error f => .error f
  | .ok none => .ok none
  | .ok (some (len, pos)) =>
    if (len : Int) > stop - (start + pos) then .ok none
    else match loadBytes mem (start + pos) len with
      | .error f => .error f
      | .ok s => .ok (some (s, start + pos + len))

/-- `decodeIntFixedLength` (SerializationUtil.cpp:104-118) on the range
`[start, stop)` of `mem`. -/
def decodeIntFixedPtr (n : Nat) (mem : Bytes) (start stop : Int) :
    Except Fault (Option (Int × Int)) :=
  if stop - start < n then .ok none
  else match loadBytes mem start n with
    | .error f => .error f
    | .ok bs => if 2 * leNat bs ≥ 256 ^ n then .ok none else .ok (some (leNat bs, start + n))

end Wdt
