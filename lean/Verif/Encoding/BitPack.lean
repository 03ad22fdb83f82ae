/-!
# Bit packing

Models `pack_into_int`, `unpack_from_int` and their special cases in
`internal/tensor_encoding/utils/tf_utils.py` 287-632 and `BitpackingEncodingStage` in
`internal/tensor_encoding/stages/stages_impl.py` 402-502.

Simplifications: tensors are flat lists, elements are natural numbers (the code works on `int32`;
the theorems show that every word stays below `2^target_bitrange`, so nothing overflows for a
target of at most 31 bits).  `tf.reshape(.., [-1, k])` is `rows k`.
-/

namespace Verif.Encoding

/-- `tf.math.mod(-tf.shape(value), k)`: how many zeros are appended (e.g. 383, 417). -/
def padLen (n k : Nat) : Nat := ((-(n : Int)) % (k : Int)).toNat

/-- `tf.concat([value, extra_zeros], 0)` (384, 418). -/
def padZeros (k : Nat) (v : List Nat) : List Nat := v ++ List.replicate (padLen v.length k) 0

/-- `tf.reshape(v, [-1, k])` of a vector whose length is a multiple of `k`. -/
def rows (k : Nat) (v : List Nat) : List (List Nat) :=
  (List.range (v.length / k)).map fun r => (v.drop (r * k)).take k

/-- The product of one row with the column `[1, 2, 4, ...]` (381-386). -/
def dotPow2 (row : List Nat) : Nat := ((row.zipIdx).map fun p => p.1 * 2 ^ p.2).sum

/-- `_pack_binary_form`, `tf_utils.py` 377-386. -/
def packBinaryForm (v : List Nat) (targetBits : Nat) : List Nat :=
  (rows targetBits (padZeros targetBits v)).map dotPow2

/-- `_expand_to_binary_form`, `tf_utils.py` 389-394. -/
def expandToBinaryForm (v : List Nat) (inputBits : Nat) : List Nat :=
  v.flatMap fun x => (List.range inputBits).map fun i => x / 2 ^ i % 2

/-- The general path of `pack_into_int`, `tf_utils.py` 323-330. -/
def packGeneral (v : List Nat) (inputBits targetBits : Nat) : List Nat :=
  packBinaryForm (if inputBits > 1 then expandToBinaryForm v inputBits else v) targetBits

/-- `tf.slice(v, [0], [n])`: fails when fewer than `n` elements are there. -/
def sliceTo (v : List Nat) (n : Nat) : Option (List Nat) :=
  if n ≤ v.length then some (v.take n) else none

/-- The general path of `unpack_from_int`, `tf_utils.py` 365-374; `n` is `reduce_prod(shape)`. -/
def unpackGeneral (v : List Nat) (originalBits targetBits n : Nat) : Option (List Nat) :=
  (sliceTo (expandToBinaryForm v targetBits) (n * originalBits)).map fun bits =>
    if originalBits > 1 then packBinaryForm bits originalBits else bits

/-- One row of `_pack_into_int_6_28`, `tf_utils.py` 420-437. -/
def packRow6 (v : List Nat) : List Nat :=
  let x := fun i => v.getD i 0
  [x 0 + x 1 * 2 ^ 6 + x 2 * 2 ^ 12 + x 3 * 2 ^ 18 + x 4 % 2 ^ 4 * 2 ^ 24,
   x 4 / 2 ^ 4 + x 5 * 2 ^ 2 + x 6 * 2 ^ 8 + x 7 * 2 ^ 14 + x 8 * 2 ^ 20 + x 9 % 2 ^ 2 * 2 ^ 26,
   x 9 / 2 ^ 2 + x 10 * 2 ^ 4 + x 11 * 2 ^ 10 + x 12 * 2 ^ 16 + x 13 * 2 ^ 22]

/-- One row of `_pack_into_int_7_28`, `tf_utils.py` 471-474. -/
def packRow7 (v : List Nat) : List Nat :=
  let x := fun i => v.getD i 0
  [x 0 + x 1 * 2 ^ 7 + x 2 * 2 ^ 14 + x 3 * 2 ^ 21]

/-- One row of `_pack_into_int_8_28`, `tf_utils.py` 501-508. -/
def packRow8 (v : List Nat) : List Nat :=
  let x := fun i => v.getD i 0
  [x 0 + x 1 * 2 ^ 8 + x 2 * 2 ^ 16 + x 3 % 2 ^ 4 * 2 ^ 24,
   x 3 / 2 ^ 4 + x 4 * 2 ^ 4 + x 5 * 2 ^ 12 + x 6 * 2 ^ 20]

/-- One row of `_pack_into_int_12_28`, `tf_utils.py` 538-546. -/
def packRow12 (v : List Nat) : List Nat :=
  let x := fun i => v.getD i 0
  [x 0 + x 1 * 2 ^ 12 + x 2 % 2 ^ 4 * 2 ^ 24,
   x 2 / 2 ^ 4 + x 3 * 2 ^ 8 + x 4 % 2 ^ 8 * 2 ^ 20,
   x 4 / 2 ^ 8 + x 5 * 2 ^ 4 + x 6 * 2 ^ 16]

/-- The common frame of the special packers: pad, reshape, pack each row, and — only if the number
of padding zeros is statically known — drop `drop extra` words (e.g. 416-418, 439-446). -/
def packSpecial (cols : Nat) (packRow : List Nat → List Nat) (drop : Nat → Nat) (static : Bool)
    (v : List Nat) : List Nat :=
  let packed := (rows cols (padZeros cols v)).flatMap packRow
  if static then packed.take (packed.length - drop (padLen v.length cols)) else packed

/-- Words dropped by `_pack_into_int_6_28` (440-445). -/
def drop6 (extra : Nat) : Nat :=
  if [5, 6, 7, 8, 9].contains extra then 1 else if [10, 11, 12, 13].contains extra then 2 else 0

/-- Words dropped by `_pack_into_int_8_28` (511-513). -/
def drop8 (extra : Nat) : Nat := if [4, 5, 6].contains extra then 1 else 0

/-- Words dropped by `_pack_into_int_12_28` (549-554). -/
def drop12 (extra : Nat) : Nat :=
  if [3, 4].contains extra then 1 else if [5, 6].contains extra then 2 else 0

/-- `pack_into_int`, `tf_utils.py` 287-330.  `static`: the number of input elements is statically
known (always in eager mode). -/
def packIntoInt (static : Bool) (v : List Nat) (inputBits targetBits : Nat) : List Nat :=
  if inputBits = 6 ∧ targetBits = 28 then packSpecial 14 packRow6 drop6 static v
  else if inputBits = 7 ∧ targetBits = 28 then packSpecial 4 packRow7 (fun _ => 0) static v
  else if inputBits = 8 ∧ targetBits = 28 then packSpecial 7 packRow8 drop8 static v
  else if inputBits = 12 ∧ targetBits = 28 then packSpecial 7 packRow12 drop12 static v
  else packGeneral v inputBits targetBits

/-- One row of `_unpack_from_int_6_28`, `tf_utils.py` 562-575. -/
def unpackRow6 (v : List Nat) : List Nat :=
  let x := fun i => v.getD i 0
  [x 0 % 2 ^ 6, x 0 / 2 ^ 6 % 2 ^ 6, x 0 / 2 ^ 12 % 2 ^ 6, x 0 / 2 ^ 18 % 2 ^ 6,
   x 0 / 2 ^ 24 + x 1 % 2 ^ 2 * 2 ^ 4,
   x 1 / 2 ^ 2 % 2 ^ 6, x 1 / 2 ^ 8 % 2 ^ 6, x 1 / 2 ^ 14 % 2 ^ 6, x 1 / 2 ^ 20 % 2 ^ 6,
   x 1 / 2 ^ 26 + x 2 % 2 ^ 4 * 2 ^ 2,
   x 2 / 2 ^ 4 % 2 ^ 6, x 2 / 2 ^ 10 % 2 ^ 6, x 2 / 2 ^ 16 % 2 ^ 6, x 2 / 2 ^ 22 % 2 ^ 6]

/-- One row of `_unpack_from_int_7_28`, `tf_utils.py` 587-590. -/
def unpackRow7 (v : List Nat) : List Nat :=
  let x := fun i => v.getD i 0
  [x 0 % 2 ^ 7, x 0 / 2 ^ 7 % 2 ^ 7, x 0 / 2 ^ 14 % 2 ^ 7, x 0 / 2 ^ 21 % 2 ^ 7]

/-- One row of `_unpack_from_int_8_28`, `tf_utils.py` 603-609. -/
def unpackRow8 (v : List Nat) : List Nat :=
  let x := fun i => v.getD i 0
  [x 0 % 2 ^ 8, x 0 / 2 ^ 8 % 2 ^ 8, x 0 / 2 ^ 16 % 2 ^ 8,
   x 0 / 2 ^ 24 + x 1 % 2 ^ 4 * 2 ^ 4,
   x 1 / 2 ^ 4 % 2 ^ 8, x 1 / 2 ^ 12 % 2 ^ 8, x 1 / 2 ^ 20]

/-- One row of `_unpack_from_int_12_28`, `tf_utils.py` 622-628. -/
def unpackRow12 (v : List Nat) : List Nat :=
  let x := fun i => v.getD i 0
  [x 0 % 2 ^ 12, x 0 / 2 ^ 12 % 2 ^ 12,
   x 0 / 2 ^ 24 + x 1 % 2 ^ 8 * 2 ^ 4,
   x 1 / 2 ^ 8 % 2 ^ 12,
   x 1 / 2 ^ 20 + x 2 % 2 ^ 4 * 2 ^ 8,
   x 2 / 2 ^ 4 % 2 ^ 12, x 2 / 2 ^ 16 % 2 ^ 12]

/-- The common frame of the special unpackers (e.g. 558-560, 577-580). -/
def unpackSpecial (cols : Nat) (unpackRow : List Nat → List Nat) (v : List Nat) (n : Nat) :
    Option (List Nat) :=
  sliceTo ((rows cols (padZeros cols v)).flatMap unpackRow) n

/-- `unpack_from_int`, `tf_utils.py` 333-374.  (`_unpack_from_int_7_28` does not pad: with one
column there is nothing to pad.) -/
def unpackFromInt (v : List Nat) (originalBits targetBits n : Nat) : Option (List Nat) :=
  if originalBits = 6 ∧ targetBits = 28 then unpackSpecial 3 unpackRow6 v n
  else if originalBits = 7 ∧ targetBits = 28 then unpackSpecial 1 unpackRow7 v n
  else if originalBits = 8 ∧ targetBits = 28 then unpackSpecial 2 unpackRow8 v n
  else if originalBits = 12 ∧ targetBits = 28 then unpackSpecial 3 unpackRow12 v n
  else unpackGeneral v originalBits targetBits n

/-- The element types `BitpackingEncodingStage.encode` distinguishes. -/
inductive DType where
  | float16 | bfloat16 | float32 | float64 | other (name : String)
  deriving DecidableEq, Repr

/-- What `BitpackingEncodingStage.encode` returns: the packed values and, for types other than
`float32`, a dummy value carrying the type. -/
structure BitPacked where
  values : List Nat
  dummyType : Option DType
  deriving DecidableEq, Repr

/-- `BitpackingEncodingStage.__init__`, `stages_impl.py` 422-446: is the argument accepted? -/
def bitpackingAccepts (inputBits : Int) : Bool := 1 ≤ inputBits && inputBits ≤ 16

/-- `BitpackingEncodingStage.encode`, `stages_impl.py` 463-486, on integral non-negative input
(the cast to `int32` is then exact); `none` is the `TypeError`. -/
def bitpackEncode (static : Bool) (inputBits : Nat) (dtype : DType) (x : List Nat) :
    Option BitPacked :=
  let packed := packIntoInt static x inputBits 28
  match dtype with
  | .float32 => some ⟨packed, none⟩
  | .float16 => some ⟨packed, some .float16⟩
  | .bfloat16 => some ⟨packed, some .bfloat16⟩
  | .float64 => some ⟨packed, some .float64⟩
  | .other _ => none

/-- `BitpackingEncodingStage.decode`, `stages_impl.py` 488-502: values and their type. -/
def bitpackDecode (inputBits : Nat) (e : BitPacked) (n : Nat) : Option (DType × List Nat) :=
  (unpackFromInt e.values inputBits 28 n).map fun u => (e.dummyType.getD .float32, u)

end Verif.Encoding
