import Verif.Codec.Encode
/-
`hash/crc32` with the Castagnoli polynomial as used by /repo/encoder.go:484, 517-524.
The Go standard library is modelled by its portable table algorithm (`simpleMakeTable`, `simpleUpdate`
in hash/crc32/crc32_generic.go); its slicing-by-8 and hardware variants compute the same function.
-/
namespace KM

/-- `crc32.Castagnoli`, reversed bit order. -/
def castagnoli : BitVec 32 := 0x82f63b78#32

/-- One bit step of `simpleMakeTable`. -/
def crcBit (c : BitVec 32) : BitVec 32 := if c &&& 1#32 = 1#32 then (c >>> 1) ^^^ castagnoli else c >>> 1

/-- Entry `i` of `crcTable`, /repo/encoder.go:484. -/
def crcTable (i : BitVec 8) : BitVec 32 :=
  crcBit (crcBit (crcBit (crcBit (crcBit (crcBit (crcBit (crcBit (i.setWidth 32))))))))

/-- One byte of `simpleUpdate`: `crc = tab[byte(crc)^v] ^ (crc >> 8)`. -/
def crcStep (c : BitVec 32) (v : UInt8) : BitVec 32 := crcTable (c.setWidth 8 ^^^ v.toBitVec) ^^^ (c >>> 8)

/-- `crc32.Update(0, crcTable, p)`. -/
def crcUpdate (p : Bytes) : BitVec 32 := ~~~ (p.foldl crcStep (~~~ 0#32))

/-- /repo/encoder.go:517-524: the checksum of everything after the checksum field. -/
def MessageV1.computeCrc (m : MessageV1) : BitVec 32 := crcUpdate ((encodeMessageV1 m).drop 16)

end KM
