/-!
# Model of `src/cxy/core/hash.c`

`HashCode` is `uint32_t`, here `BitVec 32`; C conversions between unsigned types are `setWidth`.
-/
namespace Verif.Hash

abbrev Byte := BitVec 8

/-- hash.c 9 `hashInit`. -/
def hashInit : BitVec 32 := 0x811c9dc5#32

/-- hash.c 16 `hashUint8`. -/
def hashUint8 (h : BitVec 32) (x : Byte) : BitVec 32 := (h ^^^ x.setWidth 32) * 0x01000193#32

/-- hash.c 18-21 `hashUint16`. -/
def hashUint16 (h : BitVec 32) (x : BitVec 16) : BitVec 32 :=
  hashUint8 (hashUint8 h (x.setWidth 8)) ((x >>> 8).setWidth 8)

/-- hash.c 23-26 `hashUint32`. -/
def hashUint32 (h : BitVec 32) (x : BitVec 32) : BitVec 32 :=
  hashUint16 (hashUint16 h (x.setWidth 16)) ((x >>> 16).setWidth 16)

/-- hash.c 28-31 `hashUint64` (and 11-14 `hashPtr`, which passes the address). -/
def hashUint64 (h : BitVec 32) (x : BitVec 64) : BitVec 32 :=
  hashUint32 (hashUint32 h (x.setWidth 32)) ((x >>> 32).setWidth 32)

/-- hash.c 33-38 `hashStr`: the bytes up to the first NUL.  The list is the memory the pointer
refers to; `none` when it holds no NUL (the loop reads past it). -/
def hashStr (h : BitVec 32) : List Byte → Option (BitVec 32)
  | [] => none
  | x :: xs => if x = 0#8 then some h else hashStr (hashUint8 h x) xs

/-- hash.c 40-45 `hashRawBytes`. -/
def hashRawBytes (h : BitVec 32) : List Byte → BitVec 32
  | [] => h
  | x :: xs => hashRawBytes (hashUint8 h x) xs

end Verif.Hash
