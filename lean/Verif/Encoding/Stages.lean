import Verif.Encoding.Composer
import Verif.Encoding.Hadamard
import Verif.Encoding.Uniform
import Verif.Encoding.BitPack

/-!
# The shipped encoding stages on tensors, and the common encoders

`internal/tensor_encoding/stages/stages_impl.py` (the five stages, as `EncodingStageInterface` objects) and
`internal/tensor_encoding/encoders/common_encoders.py` 76-137 (the encoders built from them).

A tensor is its element type, its shape and the list of its entries in row-major order; entries are real
numbers (no rounding).  A stage whose `encode` raises returns no tensors here: the encoder then fails when it
looks for the key of a child, or, if the stage is a leaf, when it decodes.
-/

namespace Verif.Encoding

/-- A `tf.Tensor`. -/
structure Ten where
  dtype : DType
  shape : List ℕ
  data : List ℝ

/-- `tf.int32`. -/
def DType.int32 : DType := .other "int32"

/-- `tf.reshape(t, shape)`: an error unless the number of entries fits. -/
def Ten.reshape (t : Ten) (shape : List ℕ) : Option Ten :=
  if t.data.length = shape.prod then some ⟨t.dtype, shape, t.data⟩ else none

/-- The parameter dictionaries of the shipped stages: empty, `{'seed': ...}` or
`{'max_value': ..., 'min_max': ...}`. -/
inductive Prm where
  | empty
  | seed (n : ℕ)
  | uq (p : UQParams ℝ)

/-- `IdentityEncodingStage`, `stages_impl.py` 24-66. -/
def identityStage : BasicStage Ten Prm (List ℕ) where
  compressible := ["identity_values"]
  commutes := true
  needsShape := false
  getParams := (.empty, .empty)
  encode := fun x _ => [("identity_values", x)]
  decode := fun d _ _ _ => d.lookup "identity_values"

/-- `FlattenEncodingStage`, `stages_impl.py` 69-112. -/
def flattenStage : BasicStage Ten Prm (List ℕ) where
  compressible := ["flattened_values"]
  commutes := true
  needsShape := true
  getParams := (.empty, .empty)
  encode := fun x _ => [("flattened_values", ⟨x.dtype, [x.data.length], x.data⟩)]
  decode := fun d _ _ sh =>
    match d.lookup "flattened_values", sh with
    | some t, some sh => t.reshape sh
    | _, _ => none

/-- `_validate_and_expand_encode_input`, `stages_impl.py` 209-220: a vector is one row. -/
def matrixDims : List ℕ → Option (ℕ × ℕ)
  | [d] => some (1, d)
  | [b, d] => some (b, d)
  | _ => none

/-- The `b` rows of length `d` of a matrix. -/
def matrixRows (b d : ℕ) (v : List ℝ) : List (List ℝ) :=
  (List.range b).map fun r => (v.drop (r * d)).take d

/-- Apply a row operation to all rows; any error is an error. -/
def onRows (f : List ℝ → Option (List ℝ)) : List (List ℝ) → Option (List (List ℝ))
  | [] => some []
  | r :: rs => (f r).bind fun y => (onRows f rs).map fun ys => y :: ys

/-- `HadamardEncodingStage.encode`, `stages_impl.py` 176-185. -/
noncomputable def hadamardEncodeTen (signs : ℕ → List ℝ) (x : Ten) : Option Ten :=
  (matrixDims x.shape).bind fun d =>
    if d.2 = 0 then none
    else
      (onRows (hadamardEncode (signs d.2)) (matrixRows d.1 d.2 x.data)).map fun r =>
        ⟨x.dtype, [d.1, 2 ^ Nat.clog 2 d.2], r.flatten⟩

/-- `HadamardEncodingStage.decode`, `stages_impl.py` 187-207 (`tf.slice` fails if `shape[-1]` is too large,
`tf.squeeze` if there is not exactly one row). -/
noncomputable def hadamardDecodeTen (signs : ℕ → List ℝ) (sh : List ℕ) (y : Ten) : Option Ten :=
  match y.shape, sh.getLast? with
  | [b, p], some dim =>
    if p < dim then none
    else if sh.length = 1 ∧ b ≠ 1 then none
    else
      (onRows (hadamardDecode (signs dim) dim) (matrixRows b p y.data)).map fun r =>
        ⟨y.dtype, if sh.length = 1 then [dim] else [b, dim], r.flatten⟩
  | _, _ => none

/-- `HadamardEncodingStage`, `stages_impl.py` 115-233.  `uniform seed n` are the `n` draws of the stateless
generator from `seed`, and `seed` is what `get_params` draws. -/
noncomputable def hadamardStage (uniform : ℕ → ℕ → List ℝ) (seed : ℕ) : BasicStage Ten Prm (List ℕ) where
  compressible := ["hadamard_values"]
  commutes := true
  needsShape := true
  getParams := (.seed seed, .seed seed)
  encode := fun x p =>
    match p with
    | .seed s =>
      match hadamardEncodeTen (fun n => randomSigns (uniform s n)) x with
      | some y => [("hadamard_values", y)]
      | none => []
    | _ => []
  decode := fun d p _ sh =>
    match d.lookup "hadamard_values", p, sh with
    | some y, .seed s, some sh => hadamardDecodeTen (fun n => randomSigns (uniform s n)) sh y
    | _, _, _ => none

/-- `min_max[0], min_max[1]`. -/
def Ten.two (t : Ten) : Option (ℝ × ℝ) :=
  match t.data with
  | lo :: hi :: _ => some (lo, hi)
  | _ => none

/-- The tensors `UniformQuantizationEncodingStage.encode` returns, `stages_impl.py` 373-377. -/
def uqTensors (x : Ten) (r : List ℝ × Option (ℝ × ℝ)) : List (String × Ten) :=
  match r.2 with
  | none => [("quantized_values", ⟨x.dtype, x.shape, r.1⟩)]
  | some mm => [("quantized_values", ⟨x.dtype, x.shape, r.1⟩), ("min_max", ⟨x.dtype, [2], [mm.1, mm.2]⟩)]

/-- `UniformQuantizationEncodingStage`, `stages_impl.py` 236-398; `u` are the draws of one `encode` call. -/
noncomputable def uqStage (s : UQ ℝ) (u : ℕ → ℝ) : BasicStage Ten Prm (List ℕ) where
  compressible := ["quantized_values"]
  commutes := s.commutes
  needsShape := false
  getParams := (.uq s.getParams, .uq s.getParams)
  encode := fun x p =>
    match p with
    | .uq p => uqTensors x (s.encode p u x.data)
    | _ => []
  decode := fun d p n _ =>
    match d.lookup "quantized_values", p with
    | some t, .uq p =>
      (s.decode (t.data, (d.lookup "min_max").bind Ten.two) p n).map fun v => ⟨t.dtype, t.shape, v⟩
    | _, _ => none

/-- The tensors `BitpackingEncodingStage.encode` returns, `stages_impl.py` 470-486. -/
def bitpackTensors (e : BitPacked) : List (String × Ten) :=
  match e.dummyType with
  | none => [("bitpacked_values", ⟨.int32, [e.values.length], e.values.map fun (w : ℕ) => (w : ℝ)⟩)]
  | some t =>
    [("bitpacked_values", ⟨.int32, [e.values.length], e.values.map fun (w : ℕ) => (w : ℝ)⟩),
      ("dummy_type_value", ⟨t, [], [0]⟩)]

/-- `BitpackingEncodingStage`, `stages_impl.py` 401-502.  `tf.cast(x, tf.int32)` is `⌊x⌋₊`, which is exact for
the non-negative integers the stage is documented for. -/
noncomputable def bitpackStage (static : Bool) (bits : ℕ) : BasicStage Ten Prm (List ℕ) where
  compressible := []
  commutes := false
  needsShape := true
  getParams := (.empty, .empty)
  encode := fun x _ =>
    match bitpackEncode static bits x.dtype (x.data.map fun v => ⌊v⌋₊) with
    | some e => bitpackTensors e
    | none => []
  decode := fun d _ _ sh =>
    match d.lookup "bitpacked_values", sh with
    | some t, some sh =>
      (bitpackDecode bits
        ⟨t.data.map fun v => ⌊v⌋₊, (d.lookup "dummy_type_value").map Ten.dtype⟩ sh.prod).bind fun r =>
          Ten.reshape ⟨r.1, [r.2.length], r.2.map fun (w : ℕ) => (w : ℝ)⟩ sh
    | _, _ => none

/-- An encoder over the shipped stages; none of them has a state. -/
abbrev TenEncoder := Encoder Ten Prm Unit Unit (List ℕ)

/-- `as_adaptive_encoding_stage` of a shipped stage. -/
def lift (b : BasicStage Ten Prm (List ℕ)) : Stage Ten Prm Unit Unit (List ℕ) := b.asAdaptive () ()

/-- The errors of the common encoders. -/
inductive CommonErr where
  | inputBits
  | quantization (e : UQErr)
  | compose (e : ComposeErr)
  | make
  deriving DecidableEq, Repr

/-- A chain `EncoderComposer(first).add_parent(stage, key)....make()` (`core_encoder.py` 477-548). -/
def composeChain (first : Stage Ten Prm Unit Unit (List ℕ))
    (parents : List (Stage Ten Prm Unit Unit (List ℕ) × String)) : Except CommonErr TenEncoder :=
  go parents (Heap.new [] first)
where
  /-- the remaining calls, and `make()` -/
  go : List (Stage Ten Prm Unit Unit (List ℕ) × String) → Heap Ten Prm Unit Unit (List ℕ) × ℕ →
      Except CommonErr TenEncoder
    | [], h =>
      match h.1.make h.1.length h.2 with
      | some e => .ok e
      | none => .error .make
    | p :: ps, h =>
      match h.1.addParent h.2 p.1 p.2 with
      | .ok h' => go ps h'
      | .error e => .error (.compose e)

/-- `identity()`, `common_encoders.py` 76-79. -/
def identityEncoder : Except CommonErr TenEncoder := composeChain (lift identityStage) []

/-- `uniform_quantization(bits, min_max, stochastic)`, `common_encoders.py` 82-105. -/
noncomputable def uniformQuantization (static : Bool) (bits : ℤ) (minMax : Option (List ℝ)) (stochastic : Bool)
    (u : ℕ → ℝ) : Except CommonErr TenEncoder :=
  if bitpackingAccepts bits then
    match UQ.new bits minMax stochastic with
    | .error e => .error (.quantization e)
    | .ok s =>
      composeChain (lift (bitpackStage static bits.toNat))
        [(lift (uqStage s u), "quantized_values"), (lift flattenStage, "flattened_values")]
  else .error .inputBits

/-- `hadamard_quantization(bits)`, `common_encoders.py` 108-137. -/
noncomputable def hadamardQuantization (static : Bool) (bits : ℤ) (uniform : ℕ → ℕ → List ℝ) (seed : ℕ)
    (u : ℕ → ℝ) : Except CommonErr TenEncoder :=
  if bitpackingAccepts bits then
    match UQ.new bits none true with
    | .error e => .error (.quantization e)
    | .ok s =>
      composeChain (lift (bitpackStage static bits.toNat))
        [(lift (uqStage s u), "quantized_values"), (lift (hadamardStage uniform seed), "hadamard_values"),
          (lift flattenStage, "flattened_values")]
  else .error .inputBits

end Verif.Encoding
