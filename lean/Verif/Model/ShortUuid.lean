import Verif.Base.Types

/-!
# Model: event IDs

`pkg/shortuuid/short_uuid.go`: a UUID of 16 bytes as a text without hyphens. `uuid.New` of the library
(random version 4: the upper half of byte 6 is 4, the two upper bits of byte 8 are 10) is given by its 16 random
bytes; it panics when the random source fails.
-/

namespace RangeDB.Uuid

/-- `hextable` of `encoding/hex`: "0123456789abcdef". -/
def hexDigit (n : Nat) : Nat := if n < 10 then 48 + n else 87 + n

/-- `hex.Encode` (short_uuid.go:20): two digits for each byte, the upper half first. -/
def hexEncode (bs : Str) : Str := bs.flatMap (fun b => [hexDigit (b / 16), hexDigit (b % 16)])

/-- `ShortUUID.String` (18-22): a buffer of 32 bytes, zero at first, into which the digits are written. -/
def toText (u : Str) : Str := hexEncode u ++ List.replicate (32 - (hexEncode u).length) 0

/-- `uuid.New`: version and variant set in 16 random bytes. -/
def mask (rnd : Str) : Str :=
  rnd.mapIdx (fun i b => if i = 6 then b % 16 + 64 else if i = 8 then b % 64 + 128 else b)

/-- `uuidGenerator.New` (35-37). -/
def newText (rnd : Str) : Str := toText (mask rnd)

end RangeDB.Uuid
