import Verif.Common
/-!
# CRC-32 as used by `binascii.crc32`

Model of the checksum the event-stream code calls at
`packages/smithy-aws-event-stream/src/smithy_aws_event_stream/events.py` lines 367-368
(`_EventEncoder._calculate_checksum`) and 784-789 (`_validate_checksum`).  `binascii.crc32` itself is
C code outside the repository; this is its documented definition (reflected polynomial
`0xEDB88320`, register and result complemented), one bit at a time.
-/

set_option autoImplicit false

namespace Verif.EventStream

/-- A byte string (`bytes`). -/
abbrev Bytes := List UInt8

/-- One step of the reflected CRC-32 shift register (external: `binascii.crc32`,
called from events.py:368 and events.py:787). -/
def crcShift (r : BitVec 32) : BitVec 32 :=
  if r.getLsbD 0 then (r >>> 1) ^^^ 0xEDB88320#32 else r >>> 1

/-- Eight shift-register steps (external: `binascii.crc32`). -/
def crcShift8 (r : BitVec 32) : BitVec 32 :=
  crcShift (crcShift (crcShift (crcShift (crcShift (crcShift (crcShift (crcShift r)))))))

/-- Feed one byte to the register (external: `binascii.crc32`). -/
def crcByte (r : BitVec 32) (b : UInt8) : BitVec 32 :=
  crcShift8 (r ^^^ b.toBitVec.setWidth 32)

/-- `crc32(data, init) & 0xFFFFFFFF` (events.py:368, events.py:787). -/
def crc32 (data : Bytes) (init : BitVec 32 := 0#32) : BitVec 32 :=
  ~~~ (data.foldl crcByte (~~~ init))

/-- Test (not a property): the standard check value of CRC-32 over "123456789". -/
example : crc32 [0x31, 0x32, 0x33, 0x34, 0x35, 0x36, 0x37, 0x38, 0x39] = 0xCBF43926#32 := by
  decide +kernel

end Verif.EventStream
