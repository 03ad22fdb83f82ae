import Verif.Props.FloatSequential
import Verif.Props.Run8Bit
import Verif.Props.FloatFunction
import Mathlib.Algebra.BigOperators.Ring.Finset
import Mathlib.Tactic.Ring
import Mathlib.Tactic.SplitIfs

/-!
# C114: the layers a separable convolution is split into compute what it computed

The convolutions are given by their defining sums (strides, dilation, `same` and `valid` padding, both data formats), and
the layers by the entries of their configurations, so that C77 needs no assumption on separable convolutions.
-/

set_option linter.unusedSectionVars false

namespace Verif.Props
open Verif.Quant.Regex Verif.Quant.Transformer Verif.Quant.Transforms8Bit

variable {α : Type}

namespace Spec

/-! ### Convolutions -/

/-- A batch of signals: dimensions and values. -/
structure Signal (α : Type) where
  d0 : ℕ
  d1 : ℕ
  d2 : ℕ
  val : ℕ → ℕ → ℕ → α

/-- A batch of images: dimensions and values. -/
structure Image (α : Type) where
  d0 : ℕ
  d1 : ℕ
  d2 : ℕ
  d3 : ℕ
  val : ℕ → ℕ → ℕ → ℕ → α

/-- The axes in the order batch, position, channel. -/
def Signal.toLast (fmt : String) (x : Signal α) : Signal α :=
  if fmt = "channels_last" then x else ⟨x.d0, x.d2, x.d1, fun n j c => x.val n c j⟩

/-- The axes in the order of the data format. -/
def Signal.ofLast (fmt : String) (x : Signal α) : Signal α :=
  if fmt = "channels_last" then x else ⟨x.d0, x.d2, x.d1, fun n c j => x.val n j c⟩

/-- The axes in the order batch, row, column, channel. -/
def Image.toLast (fmt : String) (x : Image α) : Image α :=
  if fmt = "channels_last" then x else ⟨x.d0, x.d2, x.d3, x.d1, fun n i j c => x.val n c i j⟩

/-- The axes in the order of the data format. -/
def Image.ofLast (fmt : String) (x : Image α) : Image α :=
  if fmt = "channels_last" then x else ⟨x.d0, x.d3, x.d1, x.d2, fun n c i j => x.val n i j c⟩

/-- The number of output positions along an axis with `size` inputs: kernel size `k`, stride `s`, dilation `d`. -/
def outSize (padding : String) (size k s d : ℕ) : ℕ :=
  if padding = "same" then (size + s - 1) / s
  else if size < (k - 1) * d + 1 then 0 else (size - ((k - 1) * d + 1)) / s + 1

/-- The number of zeros in front of the inputs. -/
def padBefore (padding : String) (size k s d : ℕ) : ℕ :=
  if padding = "same" then ((outSize padding size k s d - 1) * s + ((k - 1) * d + 1) - size) / 2 else 0

/-- The value at a position after padding. -/
def padded [Zero α] (size pad : ℕ) (x : ℕ → α) (pos : ℕ) : α :=
  if pad ≤ pos ∧ pos - pad < size then x (pos - pad) else 0

variable [CommRing α]

/-- One-dimensional depthwise convolution with `m` outputs for every channel. -/
def depthwise1D (padding : String) (k s d m : ℕ) (K : ℕ → ℕ → ℕ → α) (x : Signal α) : Signal α :=
  ⟨x.d0, outSize padding x.d1 k s d, x.d2 * m, fun n j c =>
    if j < outSize padding x.d1 k s d then
      ∑ b ∈ Finset.range k, padded x.d1 (padBefore padding x.d1 k s d) (fun q => x.val n q (c / m)) (j * s + b * d) *
        K b (c / m) (c % m)
    else 0⟩

/-- The product with a matrix at every position. -/
def pointwise1D (filters : ℕ) (P : ℕ → ℕ → α) (x : Signal α) : Signal α :=
  ⟨x.d0, x.d1, filters, fun n j f => ∑ c ∈ Finset.range x.d2, x.val n j c * P c f⟩

/-- Two-dimensional depthwise convolution with `m` outputs for every channel. -/
def depthwise2D (padding : String) (k s d : ℕ × ℕ) (m : ℕ) (K : ℕ → ℕ → ℕ → ℕ → α) (x : Image α) : Image α :=
  ⟨x.d0, outSize padding x.d1 k.1 s.1 d.1, outSize padding x.d2 k.2 s.2 d.2, x.d3 * m, fun n i j c =>
    if i < outSize padding x.d1 k.1 s.1 d.1 ∧ j < outSize padding x.d2 k.2 s.2 d.2 then
      ∑ a ∈ Finset.range k.1, ∑ b ∈ Finset.range k.2,
        padded x.d1 (padBefore padding x.d1 k.1 s.1 d.1) (fun p =>
          padded x.d2 (padBefore padding x.d2 k.2 s.2 d.2) (fun q => x.val n p q (c / m)) (j * s.2 + b * d.2))
          (i * s.1 + a * d.1) * K a b (c / m) (c % m)
    else 0⟩

/-- Two-dimensional convolution. -/
def conv2D (padding : String) (k s d : ℕ × ℕ) (filters : ℕ) (K : ℕ → ℕ → ℕ → ℕ → α) (x : Image α) : Image α :=
  ⟨x.d0, outSize padding x.d1 k.1 s.1 d.1, outSize padding x.d2 k.2 s.2 d.2, filters, fun n i j f =>
    if i < outSize padding x.d1 k.1 s.1 d.1 ∧ j < outSize padding x.d2 k.2 s.2 d.2 then
      ∑ a ∈ Finset.range k.1, ∑ b ∈ Finset.range k.2, ∑ c ∈ Finset.range x.d3,
        padded x.d1 (padBefore padding x.d1 k.1 s.1 d.1) (fun p =>
          padded x.d2 (padBefore padding x.d2 k.2 s.2 d.2) (fun q => x.val n p q c) (j * s.2 + b * d.2))
          (i * s.1 + a * d.1) * K a b c f
    else 0⟩

/-- The product with a matrix at every pixel. -/
def pointwise2D (filters : ℕ) (P : ℕ → ℕ → α) (x : Image α) : Image α :=
  ⟨x.d0, x.d1, x.d2, filters, fun n i j f => ∑ c ∈ Finset.range x.d3, x.val n i j c * P c f⟩

/-- A bias for every channel. -/
def Signal.addBias (b : Option (ℕ → α)) (x : Signal α) : Signal α :=
  { x with val := fun n j f => x.val n j f + (b.elim 0 fun b => b f) }

/-- A bias for every channel. -/
def Image.addBias (b : Option (ℕ → α)) (x : Image α) : Image α :=
  { x with val := fun n i j f => x.val n i j f + (b.elim 0 fun b => b f) }

/-! ### Layers -/

/-- Tensors between layers. -/
inductive Act (α : Type) where
  | signal (x : Signal α)
  | image (x : Image α)

/-- The tensor as signals (if it is not, no signals). -/
def Act.signals : Act α → Signal α
  | .signal x => x
  | .image _ => ⟨0, 0, 0, fun _ _ _ => 0⟩

/-- The tensor as images (if it is not, no images). -/
def Act.images : Act α → Image α
  | .signal _ => ⟨0, 0, 0, 0, fun _ _ _ _ => 0⟩
  | .image x => x

/-- Weights of one, three or four dimensions. -/
inductive Weight (α : Type) where
  | vec (b : List α)
  | three (K : List (List (List α)))
  | four (K : List (List (List (List α))))
  deriving DecidableEq

def Weight.bias : Weight α → ℕ → α
  | .vec b => fun f => b.getD f 0
  | _ => 0

def Weight.kernel3 : Weight α → ℕ → ℕ → ℕ → α
  | .three K => fun a b c => ((K.getD a []).getD b []).getD c 0
  | _ => 0

def Weight.kernel4 : Weight α → ℕ → ℕ → ℕ → ℕ → α
  | .four K => fun a b c d => (((K.getD a []).getD b []).getD c []).getD d 0
  | _ => 0

/-- `np.expand_dims(., 0)` of a kernel of three dimensions (other weights are not expanded by the code; here they become a
kernel without entries). -/
def Weight.expand : Weight α → Weight α
  | .three K => .four [K]
  | _ => .four []

/-- `tf.expand_dims(., axis)`, for axis 1 or 2. -/
def expandDims (axis : String) (x : Signal α) : Image α :=
  if axis = "1" then ⟨x.d0, 1, x.d1, x.d2, fun n _ j c => x.val n j c⟩
  else ⟨x.d0, x.d1, 1, x.d2, fun n c _ j => x.val n c j⟩

/-- `tf.squeeze(., [axis])`, for axis 1 or 2. -/
def squeezeDims (axis : String) (x : Image α) : Signal α :=
  if axis = "1" then ⟨x.d0, x.d2, x.d3, fun n j c => x.val n 0 j c⟩
  else ⟨x.d0, x.d1, x.d3, fun n c j => x.val n c 0 j⟩

/-- The meaning of texts in configurations: a number, a tuple of one or of two numbers, and activations. -/
structure Texts (α : Type) where
  number : String → ℕ
  one : String → ℕ
  two : String → ℕ × ℕ
  act : String → Act α → Act α

/-- The entry of a configuration. -/
def item (config : List (String × String)) (key : String) : String := (config.lookup key).getD "None"

/-- The weight at a position. -/
def weightAt (w : List (String × Weight α)) (i : ℕ) : Weight α := (w.map (·.2)).getD i (.vec [])

/-- The bias, if the layer has one. -/
def biasOf (config : List (String × String)) (w : List (String × Weight α)) (i : ℕ) : Option (ℕ → α) :=
  if item config "use_bias" = "True" then some (weightAt w i).bias else none

/-- What Keras computes for a `SeparableConv1D` (with `same` or `valid` padding; `quantize_apply` rejects `causal`). -/
def separableConv1D (T : Texts α) (config : List (String × String)) (w : List (String × Weight α)) (x : Act α) : Act α :=
  T.act (item config "activation") (.signal
    ((((pointwise1D (T.number (item config "filters")) ((weightAt w 1).kernel3 0)
      (depthwise1D (item config "padding") (T.one (item config "kernel_size")) (T.one (item config "strides"))
        (T.one (item config "dilation_rate")) (T.number (item config "depth_multiplier")) (weightAt w 0).kernel3
        (x.signals.toLast (item config "data_format"))))).addBias (biasOf config w 2)).ofLast (item config "data_format")))

/-- What Keras computes for a `SeparableConv2D`. -/
def separableConv2D (T : Texts α) (config : List (String × String)) (w : List (String × Weight α)) (x : Act α) : Act α :=
  T.act (item config "activation") (.image
    (((pointwise2D (T.number (item config "filters")) ((weightAt w 1).kernel4 0 0)
      (depthwise2D (item config "padding") (T.two (item config "kernel_size")) (T.two (item config "strides"))
        (T.two (item config "dilation_rate")) (T.number (item config "depth_multiplier")) (weightAt w 0).kernel4
        (x.images.toLast (item config "data_format")))).addBias (biasOf config w 2)).ofLast (item config "data_format")))

/-- What Keras computes for a `DepthwiseConv2D`. -/
def depthwiseConv2D (T : Texts α) (config : List (String × String)) (w : List (String × Weight α)) (x : Act α) : Act α :=
  T.act (item config "activation") (.image
    (((depthwise2D (item config "padding") (T.two (item config "kernel_size")) (T.two (item config "strides"))
        (T.two (item config "dilation_rate")) (T.number (item config "depth_multiplier")) (weightAt w 0).kernel4
        (x.images.toLast (item config "data_format"))).addBias (biasOf config w 1)).ofLast (item config "data_format")))

/-- What Keras computes for a `Conv2D` (with one group). -/
def convolution2D (T : Texts α) (config : List (String × String)) (w : List (String × Weight α)) (x : Act α) : Act α :=
  T.act (item config "activation") (.image
    (((conv2D (item config "padding") (T.two (item config "kernel_size")) (T.two (item config "strides"))
        (T.two (item config "dilation_rate")) (T.number (item config "filters")) (weightAt w 0).kernel4
        (x.images.toLast (item config "data_format"))).addBias (biasOf config w 1)).ofLast (item config "data_format")))

/-- The first tensor a layer is called with. -/
def firstArg (args : List (Arg (Act α))) : Act α :=
  match args with
  | [] => .signal ⟨0, 0, 0, fun _ _ _ => 0⟩
  | a :: _ => a.1

/-- The layers: convolutions, the `Lambda` layers that expand and squeeze, `QuantizeLayer` without fake quantization, and
any other layers. -/
def layersOf (T : Texts α) (other : Semantics (Weight α) (Act α)) : Semantics (Weight α) (Act α) :=
  fun cls config w args t =>
    if cls = "SeparableConv1D" then separableConv1D T config w (firstArg args)
    else if cls = "SeparableConv2D" then separableConv2D T config w (firstArg args)
    else if cls = "DepthwiseConv2D" then depthwiseConv2D T config w (firstArg args)
    else if cls = "Conv2D" then convolution2D T config w (firstArg args)
    else if cls = "Lambda" ∧ item config "function" = "expand_dims 1" then .image (expandDims "1" (firstArg args).signals)
    else if cls = "Lambda" ∧ item config "function" = "expand_dims 2" then .image (expandDims "2" (firstArg args).signals)
    else if cls = "Lambda" ∧ item config "function" = "squeeze 1" then .signal (squeezeDims "1" (firstArg args).images)
    else if cls = "Lambda" ∧ item config "function" = "squeeze 2" then .signal (squeezeDims "2" (firstArg args).images)
    else if cls = "QuantizeLayer" then firstArg args
    else other cls config w args t

/-- What the texts mean: `str1 s` is the tuple of 1 and the number in `s`, `str2 s` has the number in `s` twice; strides are
positive; a linear and a no-op activation compute nothing; and other activations do not depend on an axis of size 1. -/
structure Meaning (T : Texts α) (str1 str2 : String → String) : Prop where
  ones : T.two "(1, 1)" = (1, 1)
  pair1 : ∀ s, T.two (str1 s) = (1, T.one s)
  pair2 : ∀ s, T.two (str2 s) = (T.one s, T.one s)
  positive : ∀ s, 0 < T.one s
  linear : ∀ s, matchPattern s "linear" = true → T.act s = id
  noOp : T.act "{'class_name': 'NoOpActivation', 'config': {}}" = id
  squeeze : ∀ s axis (x : Image α), ∃ y, T.act s (.image x) = .image y ∧
    T.act s (.signal (squeezeDims axis x)) = .signal (squeezeDims axis y)

end Spec

namespace Aux
open Spec
variable [CommRing α]

theorem toLast_ofLast (fmt : String) (x : Image α) : (x.ofLast fmt).toLast fmt = x := by
  unfold Image.ofLast Image.toLast
  split_ifs <;> rfl

/-- A convolution with a kernel of one pixel is a product at every pixel. -/
theorem conv_pointwise (d : ℕ × ℕ) (filters : ℕ) (K : ℕ → ℕ → ℕ → ℕ → α) (x : Image α)
    (hx : ∀ n i j c, ¬ (i < x.d1 ∧ j < x.d2) → x.val n i j c = 0) :
    conv2D "valid" (1, 1) (1, 1) d filters K x = pointwise2D filters (K 0 0) x := by
  have hs : ∀ size e, outSize "valid" size 1 1 e = size := by
    intro size e
    rw [outSize, if_neg (by decide)]
    split_ifs <;> omega
  have hp : ∀ size e, padBefore "valid" size 1 1 e = 0 := by
    intro size e
    rw [padBefore, if_neg (by decide)]
  unfold conv2D pointwise2D
  simp only [hs, hp, Finset.range_one, Finset.sum_singleton, Nat.mul_one, Nat.zero_mul, Nat.add_zero]
  congr 1
  funext n i j f
  split_ifs with h
  · refine Finset.sum_congr rfl fun c _ => ?_
    rw [padded, if_pos ⟨Nat.zero_le _, by simpa using h.1⟩, padded, if_pos ⟨Nat.zero_le _, by simpa using h.2⟩]
    simp
  · rw [Finset.sum_eq_zero]
    intro c _
    rw [hx n i j c h, zero_mul]

theorem depthwise_zero (padding : String) (k s d : ℕ × ℕ) (m : ℕ) (K : ℕ → ℕ → ℕ → ℕ → α) (x : Image α) (n i j c : ℕ)
    (h : ¬ (i < (depthwise2D padding k s d m K x).d1 ∧ j < (depthwise2D padding k s d m K x).d2)) :
    (depthwise2D padding k s d m K x).val n i j c = 0 := if_neg h

/-- On an image of one row the two-dimensional convolutions are the one-dimensional ones. -/
theorem depthwise_row (padding : String) (k s d m : ℕ) (hs : 0 < s) (K4 : ℕ → ℕ → ℕ → ℕ → α) (K : ℕ → ℕ → ℕ → α)
    (hK : K4 0 = K) (x : Signal α) :
    depthwise2D padding (1, k) (s, s) (1, d) m K4 ⟨x.d0, 1, x.d1, x.d2, fun n _ j c => x.val n j c⟩ =
      ⟨x.d0, 1, (depthwise1D padding k s d m K x).d1, (depthwise1D padding k s d m K x).d2,
        fun n i j c => if i < 1 then (depthwise1D padding k s d m K x).val n j c else 0⟩ := by
  have h1 : outSize padding 1 1 s 1 = 1 := by
    unfold outSize
    split_ifs
    · rw [Nat.add_sub_cancel_left, Nat.div_self hs]
    · omega
    · simp
  have h2 : padBefore padding 1 1 s 1 = 0 := by
    rw [padBefore, h1]; simp
  unfold depthwise2D depthwise1D
  simp only [h1, h2, hK, Finset.range_one, Finset.sum_singleton]
  congr 1
  funext n i j c
  by_cases hi : i < 1
  · have hi0 : i = 0 := by omega
    subst hi0
    simp only [Nat.zero_mul, Nat.add_zero, if_true, hi, true_and]
    split_ifs
    · refine Finset.sum_congr rfl fun b _ => ?_
      rw [padded, if_pos ⟨Nat.le_refl _, by simp⟩]
    · rfl
  · rw [if_neg hi, if_neg (fun h => hi h.1)]

theorem expand_last (fmt : String) (x : Signal α) :
    (expandDims (if fmt = "channels_last" then "1" else "2") x).toLast fmt =
      ⟨(x.toLast fmt).d0, 1, (x.toLast fmt).d1, (x.toLast fmt).d2, fun n _ j c => (x.toLast fmt).val n j c⟩ := by
  unfold expandDims Image.toLast Signal.toLast
  by_cases h : fmt = "channels_last"
  · simp [h]
  · simp [h]

theorem squeeze_last (fmt : String) (x : Image α) :
    squeezeDims (if fmt = "channels_last" then "1" else "2") (x.ofLast fmt) =
      (⟨x.d0, x.d2, x.d3, fun n j c => x.val n 0 j c⟩ : Signal α).ofLast fmt := by
  unfold squeezeDims Image.ofLast Signal.ofLast
  by_cases h : fmt = "channels_last"
  · simp [h]
  · simp [h]

theorem expand_kernel (w : Weight α) : w.expand.kernel4 0 = w.kernel3 := by
  cases w
  · rfl
  · rfl
  · rfl

theorem item_get (l : Layer) (key : String) (h : key ≠ "name") : l.get key = item l.config key := by
  rw [Layer.get, if_neg h]; rfl

/-- C114 for `SeparableConv2D`. -/
theorem split2D (T : Texts α) {str1 str2} (hT : Meaning T str1 str2) (config cd cc : List (String × String))
    (w wd wc : List (String × Weight α)) (x : Act α)
    (hd : ∀ key ∈ ["kernel_size", "strides", "padding", "depth_multiplier", "data_format", "dilation_rate"],
      item cd key = item config key)
    (hda : item cd "activation" = "linear") (hdb : item cd "use_bias" ≠ "True")
    (hc : ∀ key ∈ ["filters", "data_format", "activation", "use_bias"], item cc key = item config key)
    (hck : item cc "kernel_size" = "(1, 1)") (hcs : item cc "strides" = "(1, 1)") (hcp : item cc "padding" = "valid")
    (hwd : weightAt wd 0 = weightAt w 0) (hwc : weightAt wc 0 = weightAt w 1)
    (hwb : item config "use_bias" = "True" → weightAt wc 1 = weightAt w 2) :
    convolution2D T cc wc (depthwiseConv2D T cd wd x) = separableConv2D T config w x := by
  have hlin : matchPattern "linear" "linear" = true := by decide +kernel
  have hb : biasOf cc wc 1 = biasOf config w 2 := by
    unfold biasOf
    rw [hc "use_bias" (by simp)]
    split_ifs with h
    · rw [hwb h]
    · rfl
  have hbd : biasOf cd wd 1 = (none : Option (ℕ → α)) := if_neg hdb
  have hnone : ∀ y : Image α, y.addBias none = y := by
    intro y; simp [Image.addBias]
  unfold convolution2D separableConv2D depthwiseConv2D
  rw [hda, hT.linear _ hlin, hb, hbd, hck, hcs, hcp, hT.ones, hc "filters" (by simp), hc "data_format" (by simp),
    hc "activation" (by simp), hd "padding" (by simp), hd "kernel_size" (by simp), hd "strides" (by simp),
    hd "dilation_rate" (by simp), hd "depth_multiplier" (by simp), hd "data_format" (by simp), hwd, hwc, hnone, id]
  rw [Act.images, toLast_ofLast, conv_pointwise _ _ _ _ (fun n i j c h => depthwise_zero _ _ _ _ _ _ _ n i j c h)]

/-- C114 for `SeparableConv1D`. -/
theorem split1D (T : Texts α) {str1 str2} (hT : Meaning T str1 str2) (config cs : List (String × String))
    (w ws : List (String × Weight α)) (x : Act α)
    (hs : ∀ key ∈ ["filters", "padding", "data_format", "depth_multiplier", "activation", "use_bias"],
      item cs key = item config key)
    (hsk : item cs "kernel_size" = str1 (item config "kernel_size"))
    (hss : item cs "strides" = str2 (item config "strides"))
    (hsd : item cs "dilation_rate" = str1 (item config "dilation_rate"))
    (hw0 : weightAt ws 0 = (weightAt w 0).expand) (hw1 : weightAt ws 1 = (weightAt w 1).expand)
    (hwb : item config "use_bias" = "True" → weightAt ws 2 = weightAt w 2) :
    .signal (squeezeDims (if item config "data_format" = "channels_last" then "1" else "2")
      (separableConv2D T cs ws (.image (expandDims (if item config "data_format" = "channels_last" then "1" else "2")
        x.signals))).images) = separableConv1D T config w x := by
  have hb : biasOf cs ws 2 = biasOf config w 2 := by
    unfold biasOf
    rw [hs "use_bias" (by simp)]
    split_ifs with h
    · rw [hwb h]
    · rfl
  unfold separableConv1D separableConv2D
  rw [hsk, hss, hsd, hT.pair1, hT.pair2, hT.pair1, hb, hs "filters" (by simp), hs "data_format" (by simp),
    hs "activation" (by simp), hs "padding" (by simp), hs "depth_multiplier" (by simp), hw0, hw1, Act.images,
    expand_last]
  have := depthwise_row (item config "padding") (T.one (item config "kernel_size")) (T.one (item config "strides"))
    (T.one (item config "dilation_rate")) (T.number (item config "depth_multiplier")) (hT.positive _)
    (weightAt w 0).expand.kernel4 (weightAt w 0).kernel3 (expand_kernel _) (x.signals.toLast (item config "data_format"))
  rw [expand_kernel, this]
  have hd0 : (depthwise1D (item config "padding") (T.one (item config "kernel_size")) (T.one (item config "strides"))
    (T.one (item config "dilation_rate")) (T.number (item config "depth_multiplier"))
    (weightAt w 0).kernel3 (x.signals.toLast (item config "data_format"))).d0 =
      (x.signals.toLast (item config "data_format")).d0 := rfl
  rw [← hd0]
  generalize depthwise1D (item config "padding") (T.one (item config "kernel_size")) (T.one (item config "strides"))
    (T.one (item config "dilation_rate")) (T.number (item config "depth_multiplier"))
    (weightAt w 0).kernel3 (x.signals.toLast (item config "data_format")) = y
  obtain ⟨z, h1, h2⟩ := hT.squeeze (item config "activation")
    (if item config "data_format" = "channels_last" then "1" else "2")
    (((pointwise2D (T.number (item config "filters")) ((weightAt w 1).kernel3 0)
      ⟨y.d0, 1, y.d1, y.d2,
        fun n i j c => if i < 1 then y.val n j c else 0⟩).addBias (biasOf config w 2)).ofLast (item config "data_format"))
  rw [h1]
  show Act.signal (squeezeDims _ z) = _
  rw [← h2, squeeze_last]
  rfl

theorem item_setKey (config : List (String × String)) (key val k' : String) (h : k' ≠ key) :
    item (setKey config key val) k' = item config k' := by
  rw [item, lookup_setKey _ _ _ _ h]; rfl

theorem lookup_setKey_self (config : List (String × String)) (key val : String) :
    (setKey config key val).lookup key = some val := by
  rw [setKey]
  split
  · rename_i h
    induction config with
    | nil => simp at h
    | cons e config ih =>
      rw [List.map_cons]
      by_cases he : e.1 = key
      · rw [if_pos he, List.lookup_cons, beq_self_eq_true]
      · rw [if_neg he]
        rw [List.lookup_cons, beq_false_of_ne (Ne.symm he)]
        refine ih ?_
        simpa [he] using h
  · rename_i h
    induction config with
    | nil => simp
    | cons e config ih =>
      have he : e.1 ≠ key := by
        intro he; apply h; simp [he]
      rw [List.cons_append, List.lookup_cons, beq_false_of_ne (Ne.symm he)]
      refine ih ?_
      intro h'; apply h; simp only [List.any_cons, h', Bool.or_true]

theorem item_setKey_self (config : List (String × String)) (key val : String) :
    item (setKey config key val) key = val := by
  rw [item, lookup_setKey_self]; rfl

theorem biasOf_setKey (config : List (String × String)) (val : String) (w : List (String × Weight α)) (i : ℕ) :
    biasOf (setKey config "activation" val) w i = biasOf config w i := by
  unfold biasOf
  rw [item_setKey _ _ _ _ (by decide)]

theorem layers_noOp (T : Texts α) {str1 str2} (hT : Meaning T str1 str2) (other : Semantics (Weight α) (Act α))
    (hother : ∀ cls config w args, matchPattern ((config.lookup "activation").getD "None") "linear" →
      other cls (setKey config "activation" noOpActivation) w args = other cls config w args)
    (cls : String) (config : List (String × String)) (w : List (String × Weight α)) (args : List (Arg (Act α)))
    (h : matchPattern ((config.lookup "activation").getD "None") "linear") :
    layersOf T other cls (setKey config "activation" noOpActivation) w args = layersOf T other cls config w args := by
  have ha : T.act (item (setKey config "activation" noOpActivation) "activation") = T.act (item config "activation") := by
    rw [item_setKey_self, hT.linear (item config "activation") h]
    exact hT.noOp
  funext t
  unfold layersOf separableConv1D separableConv2D depthwiseConv2D convolution2D
  rw [ha, biasOf_setKey, biasOf_setKey, hother _ _ _ _ h]
  simp only [item_setKey _ _ _ _ (show "filters" ≠ "activation" by decide),
    item_setKey _ _ _ _ (show "padding" ≠ "activation" by decide),
    item_setKey _ _ _ _ (show "kernel_size" ≠ "activation" by decide),
    item_setKey _ _ _ _ (show "strides" ≠ "activation" by decide),
    item_setKey _ _ _ _ (show "dilation_rate" ≠ "activation" by decide),
    item_setKey _ _ _ _ (show "depth_multiplier" ≠ "activation" by decide),
    item_setKey _ _ _ _ (show "data_format" ≠ "activation" by decide),
    item_setKey _ _ _ _ (show "function" ≠ "activation" by decide)]

end Aux

section Main
variable [CommRing α] {U : Type} [DecidableEq U] [DecidableEq α]

open Spec in
/-- C114 for `SeparableConv2D`: the `DepthwiseConv2D` and the `Conv2D` it is replaced with compute what it computed. -/
theorem C114_separable2D (T : Texts α) {str1 str2 : String → String} (hT : Meaning T str1 str2)
    (other : Semantics (Weight α) (Act α)) (auto : String → ℕ → String) (k k' : ℕ) (n r : Node (Weight α) (Meta U))
    (hw : SepWeights n.layer n.weights) (hc : hasConfig n = false)
    (hr : replaceSepConv auto k n = .ok (r, k')) (args : List (Arg (Act α))) (t : ℕ) :
    chainValue (layersOf T other) r args t = separableConv2D T n.layer.config n.weights (firstArg args) := by
  obtain ⟨l, w, i, ins⟩ := n
  change w.length = (if l.get "use_bias" = "True" then 3 else 2) at hw
  simp only [replaceSepConv, hc, Bool.false_eq_true, if_false, Except.ok.injEq, Prod.mk.injEq] at hr
  obtain ⟨hr, -⟩ := hr
  rw [← hr, chainValue, chainValue]
  show convolution2D T _ _ (depthwiseConv2D T _ _ (firstArg args)) = separableConv2D T l.config w (firstArg args)
  refine Aux.split2D T hT _ _ _ _ _ _ _ ?_ ?_ ?_ ?_ ?_ ?_ ?_ ?_ ?_ ?_
  · intro key hkey
    simp only [List.mem_cons, List.not_mem_nil, or_false] at hkey
    rcases hkey with rfl | rfl | rfl | rfl | rfl | rfl
    · exact Aux.item_get l "kernel_size" (by decide)
    · exact Aux.item_get l "strides" (by decide)
    · exact Aux.item_get l "padding" (by decide)
    · exact Aux.item_get l "depth_multiplier" (by decide)
    · exact Aux.item_get l "data_format" (by decide)
    · exact Aux.item_get l "dilation_rate" (by decide)
  · rfl
  · show "False" ≠ "True"
    decide
  · intro key hkey
    simp only [List.mem_cons, List.not_mem_nil, or_false] at hkey
    rcases hkey with rfl | rfl | rfl | rfl
    · exact Aux.item_get l "filters" (by decide)
    · exact Aux.item_get l "data_format" (by decide)
    · exact Aux.item_get l "activation" (by decide)
    · exact Aux.item_get l "use_bias" (by decide)
  · rfl
  · rfl
  · rfl
  all_goals
    have hub : l.get "use_bias" = item l.config "use_bias" := Aux.item_get l _ (by decide)
    by_cases hb : l.get "use_bias" = "True"
    · rw [if_pos hb] at hw
      match w, hw with
      | [a, b, d], _ => simp [Node.weights, Node.layer, weightAt, hb]
    · rw [if_neg hb] at hw
      match w, hw with
      | [a, b], _ => simp [Node.weights, Node.layer, weightAt, hb, ← hub]

open Spec in
/-- C114 for `SeparableConv1D`: the two `Lambda`s and the `SeparableConv2D` it is replaced with compute what it computed. -/
theorem C114_separable1D (T : Texts α) {str1 str2 : String → String} (hT : Meaning T str1 str2)
    (other : Semantics (Weight α) (Act α)) (auto : String → ℕ → String) (k k' : ℕ) (n r : Node (Weight α) (Meta U))
    (hw : SepWeights n.layer n.weights) (hc : hasConfig n = false)
    (hr : replaceSepConv1D auto Weight.expand str1 str2 k n = .ok (r, k')) (args : List (Arg (Act α))) (t : ℕ) :
    chainValue (layersOf T other) r args t = separableConv1D T n.layer.config n.weights (firstArg args) := by
  obtain ⟨l, w, i, ins⟩ := n
  change w.length = (if l.get "use_bias" = "True" then 3 else 2) at hw
  simp only [replaceSepConv1D, hc, Bool.false_eq_true, if_false] at hr
  split at hr
  · simp at hr
  simp only [Except.ok.injEq, Prod.mk.injEq] at hr
  obtain ⟨hr, -⟩ := hr
  rw [← hr, chainValue, chainValue, chainValue]
  have hfmt : (Node.mk l w i ins).layer.get "data_format" = item l.config "data_format" := Aux.item_get l _ (by decide)
  have key := fun cs ws h1 h2 h3 h4 h5 h6 h7 => Aux.split1D T hT l.config cs w ws (firstArg args) h1 h2 h3 h4 h5 h6 h7
  rw [hfmt]
  suffices h : ∀ fmt, fmt = item l.config "data_format" →
      Act.signal (squeezeDims (if fmt = "channels_last" then "1" else "2")
      (separableConv2D T _ _ (.image (expandDims (if fmt = "channels_last" then "1" else "2")
        (firstArg args).signals))).images) = separableConv1D T l.config w (firstArg args) by
    refine Eq.trans ?_ (h _ rfl)
    by_cases hl : item l.config "data_format" = "channels_last"
    · rw [if_pos hl]; rfl
    · rw [if_neg hl]; rfl
  rintro fmt rfl
  refine key _ _ ?_ ?_ ?_ ?_ ?_ ?_ ?_
  · intro key hkey
    simp only [List.mem_cons, List.not_mem_nil, or_false] at hkey
    rcases hkey with rfl | rfl | rfl | rfl | rfl | rfl
    · exact Aux.item_get l "filters" (by decide)
    · exact Aux.item_get l "padding" (by decide)
    · exact Aux.item_get l "data_format" (by decide)
    · exact Aux.item_get l "depth_multiplier" (by decide)
    · exact Aux.item_get l "activation" (by decide)
    · exact Aux.item_get l "use_bias" (by decide)
  · exact congrArg str1 (Aux.item_get l "kernel_size" (by decide))
  · exact congrArg str2 (Aux.item_get l "strides" (by decide))
  · exact congrArg str1 (Aux.item_get l "dilation_rate" (by decide))
  all_goals
    have hub : l.get "use_bias" = item l.config "use_bias" := Aux.item_get l _ (by decide)
    by_cases hb : l.get "use_bias" = "True"
    · rw [if_pos hb] at hw
      match w, hw with
      | [a, b, d], _ => simp [Node.weights, Node.layer, weightAt, hb]
    · rw [if_neg hb] at hw
      match w, hw with
      | [a, b], _ => simp [Node.weights, Node.layer, weightAt, hb, ← hub]

open Spec in
/-- C114, training: the `DepthwiseConv2D` and the `Conv2D` take over the initializers, regularizers, constraints and the
`trainable` flag. -/
theorem C114_settings2D (auto : String → ℕ → String) (k k' : ℕ) (n r : Node (Weight α) (Meta U))
    (hc : hasConfig n = false) (hr : replaceSepConv auto k n = .ok (r, k')) :
    ∃ d, r.inputs = [d] ∧ d.inputs = [] ∧ r.layer.cls = "Conv2D" ∧ d.layer.cls = "DepthwiseConv2D" ∧
      (∀ part ∈ ["initializer", "regularizer", "constraint"],
        item d.layer.config ("depthwise_" ++ part) = item n.layer.config ("depthwise_" ++ part) ∧
        item r.layer.config ("kernel_" ++ part) = item n.layer.config ("pointwise_" ++ part) ∧
        item r.layer.config ("bias_" ++ part) = item n.layer.config ("bias_" ++ part)) ∧
      item r.layer.config "activity_regularizer" = item n.layer.config "activity_regularizer" ∧
      item d.layer.config "activity_regularizer" = "None" ∧
      item r.layer.config "trainable" = item n.layer.config "trainable" ∧
      item d.layer.config "trainable" = item n.layer.config "trainable" := by
  obtain ⟨l, w, i, ins⟩ := n
  simp only [replaceSepConv, hc, Bool.false_eq_true, if_false, Except.ok.injEq, Prod.mk.injEq] at hr
  obtain ⟨hr, -⟩ := hr
  rw [← hr]
  refine ⟨_, rfl, rfl, rfl, rfl, ?_, Aux.item_get l "activity_regularizer" (by decide), rfl,
    Aux.item_get l "trainable" (by decide), Aux.item_get l "trainable" (by decide)⟩
  intro part hpart
  simp only [List.mem_cons, List.not_mem_nil, or_false] at hpart
  rcases hpart with rfl | rfl | rfl
  · exact ⟨Aux.item_get l "depthwise_initializer" (by decide), Aux.item_get l "pointwise_initializer" (by decide),
      Aux.item_get l "bias_initializer" (by decide)⟩
  · exact ⟨Aux.item_get l "depthwise_regularizer" (by decide), Aux.item_get l "pointwise_regularizer" (by decide),
      Aux.item_get l "bias_regularizer" (by decide)⟩
  · exact ⟨Aux.item_get l "depthwise_constraint" (by decide), Aux.item_get l "pointwise_constraint" (by decide),
      Aux.item_get l "bias_constraint" (by decide)⟩

open Spec in
/-- C114, training: the `SeparableConv2D` takes over the initializers, regularizers, constraints and the `trainable` flag of
the `SeparableConv1D`. -/
theorem C114_settings1D (auto : String → ℕ → String) (str1 str2 : String → String) (k k' : ℕ)
    (n r : Node (Weight α) (Meta U)) (hc : hasConfig n = false)
    (hr : replaceSepConv1D auto Weight.expand str1 str2 k n = .ok (r, k')) :
    ∃ c e, r.inputs = [c] ∧ c.inputs = [e] ∧ e.inputs = [] ∧ r.layer.cls = "Lambda" ∧ c.layer.cls = "SeparableConv2D" ∧
      e.layer.cls = "Lambda" ∧
      (∀ weight ∈ ["depthwise_", "pointwise_", "bias_"], ∀ part ∈ ["initializer", "regularizer", "constraint"],
        item c.layer.config (weight ++ part) = item n.layer.config (weight ++ part)) ∧
      item c.layer.config "activity_regularizer" = item n.layer.config "activity_regularizer" ∧
      item c.layer.config "trainable" = item n.layer.config "trainable" := by
  obtain ⟨l, w, i, ins⟩ := n
  simp only [replaceSepConv1D, hc, Bool.false_eq_true, if_false] at hr
  split at hr
  · simp at hr
  simp only [Except.ok.injEq, Prod.mk.injEq] at hr
  obtain ⟨hr, -⟩ := hr
  rw [← hr]
  refine ⟨_, _, rfl, rfl, rfl, rfl, rfl, rfl, ?_, Aux.item_get l "activity_regularizer" (by decide),
    Aux.item_get l "trainable" (by decide)⟩
  intro weight hweight part hpart
  simp only [List.mem_cons, List.not_mem_nil, or_false] at hpart hweight
  rcases hweight with rfl | rfl | rfl <;> rcases hpart with rfl | rfl | rfl
  · exact Aux.item_get l "depthwise_initializer" (by decide)
  · exact Aux.item_get l "depthwise_regularizer" (by decide)
  · exact Aux.item_get l "depthwise_constraint" (by decide)
  · exact Aux.item_get l "pointwise_initializer" (by decide)
  · exact Aux.item_get l "pointwise_regularizer" (by decide)
  · exact Aux.item_get l "pointwise_constraint" (by decide)
  · exact Aux.item_get l "bias_initializer" (by decide)
  · exact Aux.item_get l "bias_regularizer" (by decide)
  · exact Aux.item_get l "bias_constraint" (by decide)

open Spec in
/-- C114: layers of which nothing is assumed about separable convolutions, other than the sums that define them, have the
properties C77 asks for. -/
theorem C114_layers (T : Texts α) {str1 str2 : String → String} (hT : Meaning T str1 str2)
    (other : Semantics (Weight α) (Act α))
    (hother : ∀ cls config w args, matchPattern ((config.lookup "activation").getD "None") "linear" →
      other cls (setKey config "activation" noOpActivation) w args = other cls config w args)
    (auto : String → ℕ → String) : FloatOps (layersOf T other) auto Weight.expand str1 str2 U := by
  refine ⟨fun cls config w args h => Aux.layers_noOp T hT other hother cls config w args h, ?_, ?_, ?_⟩
  · intro config x t; rfl
  · intro k n r k' hw hcls hr hc args
    funext t
    rw [C114_separable1D T hT other auto k k' n r hw hc hr args t, hcls]; rfl
  · intro k n r k' hw hcls hr hc args
    funext t
    rw [C114_separable2D T hT other auto k k' n r hw hc hr args t, hcls]; rfl

open Spec in
/-- C114 for Sequential models: after the default 8-bit transforms, the model computes what it computed. -/
theorem C114_sequential (T : Texts α) {str1 str2 : String → String} (hT : Meaning T str1 str2)
    (other : Semantics (Weight α) (Act α))
    (hother : ∀ cls config w args, matchPattern ((config.lookup "activation").getD "None") "linear" →
      other cls (setKey config "activation" noOpActivation) w args = other cls config w args)
    (metaEq : Meta U → Meta U → Bool) (auto : String → ℕ → String) (c : Classes)
    (g g' : Graph (Weight α) (Meta U)) (hg : SequentialModel g)
    (hnames : FreshNames auto (g.layers.map (·.name))) (fuel : ℕ)
    (hrun : run metaEq (transforms auto c Weight.expand str1 str2) fuel
      (start (transforms auto c Weight.expand str1 str2) g) = some (.ok g')) (x : Act α) :
    sequentialValue (layersOf T other) g' x = sequentialValue (layersOf T other) g x :=
  (C77_sequential metaEq auto c Weight.expand str1 str2 _ (C114_layers T hT other hother auto) g g' hg hnames fuel
    hrun).2 x

open Spec in
/-- C114 for functional models without `Concatenate` (see C77). -/
theorem C114_functional (T : Texts α) {str1 str2 : String → String} (hT : Meaning T str1 str2)
    (other : Semantics (Weight α) (Act α))
    (hother : ∀ cls config w args, matchPattern ((config.lookup "activation").getD "None") "linear" →
      other cls (setKey config "activation" noOpActivation) w args = other cls config w args)
    (metaEq : Meta U → Meta U → Bool) (auto : String → ℕ → String) (c : Classes)
    (g g' : Graph (Weight α) (Meta U)) (hf : g.functional = true) (hg : Valid g) (hu : Unary g)
    (hcat : ∀ l ∈ g.layers, l.cls ≠ "Concatenate")
    (hnames : FreshNames auto (g.layers.map (·.name))) (fuel : ℕ)
    (hrun : run metaEq (transforms auto c Weight.expand str1 str2) fuel
      (start (transforms auto c Weight.expand str1 str2) g) = some (.ok g'))
    (v w : String → ℕ → ℕ → Act α) (hv : IsRun (layersOf T other) g v) (hw : IsRun (layersOf T other) g' w)
    (hsame : ∀ l ∈ g.layers, l.inbound = [] → v l.name 0 0 = w l.name 0 0) :
    outputValues g' w = outputValues g v :=
  (C77_default8bit_partial metaEq auto c Weight.expand str1 str2 _ (C114_layers T hT other hother auto) g g' hf hg hu hcat
    hnames fuel hrun v w hv hw hsame).2

end Main

namespace Example
open Spec

/-- The number written with the digits of a text. -/
def digits (l : List Char) : ℕ := Nat.ofDigitChars 10 (l.filter Char.isDigit) 0

/-- The meaning of texts such as `3`, `(3,)`, `(1, 3)`, with `relu` as the only activation. -/
def texts : Texts ℤ where
  number s := digits s.toList
  one s := max 1 (digits s.toList)
  two s := (digits (s.toList.takeWhile (· != ',')), digits (s.toList.dropWhile (· != ',')))
  act s x := if s = "relu" then
      match x with
      | .signal x => .signal { x with val := fun n j c => max 0 (x.val n j c) }
      | .image x => .image { x with val := fun n i j c => max 0 (x.val n i j c) }
    else x

/-- `(1,) + kernel_size` and `strides * 2`, as texts. -/
def one_and (s : String) : String := "(1, " ++ toString (texts.one s) ++ ")"
def twice (s : String) : String := "(" ++ toString (texts.one s) ++ ", " ++ toString (texts.one s) ++ ")"

theorem digits_append (a b : List Char) (ha : a.filter Char.isDigit = []) : digits (a ++ b) = digits b := by
  rw [digits, List.filter_append, ha]; rfl

theorem digits_toString (j : ℕ) (b : List Char) (hb : b.filter Char.isDigit = []) :
    digits ((toString j).toList ++ b) = j := by
  rw [digits, List.filter_append, hb, List.append_nil, List.filter_eq_self.2]
  · rw [show toString j = j.repr from rfl, Nat.toList_repr, Nat.ofDigitChars_ten_toDigits]
  · intro ch hch
    rw [show toString j = j.repr from rfl, Nat.toList_repr] at hch
    exact Nat.isDigit_of_mem_toDigits (by decide) (by decide) hch

theorem take_number (j : ℕ) (b : List Char) :
    ((toString j).toList ++ ',' :: b).takeWhile (· != ',') = (toString j).toList ∧
    ((toString j).toList ++ ',' :: b).dropWhile (· != ',') = ',' :: b := by
  have h : ∀ ch ∈ (toString j).toList, (ch != ',') = true := by
    intro ch hch
    rw [bne_iff_ne]
    rintro rfl
    exact Aux.digit_ne j ',' (by decide) hch
  rw [List.takeWhile_append_of_pos h, List.dropWhile_append_of_pos h]
  simp

theorem texts_meaning : Meaning texts one_and twice := by
  refine ⟨by decide +kernel, ?_, ?_, fun s => Nat.lt_of_lt_of_le Nat.zero_lt_one (Nat.le_max_left _ _), ?_, ?_, ?_⟩
  · intro s
    have h : (one_and s).toList = ['(', '1'] ++ ',' :: (' ' :: ((toString (texts.one s)).toList ++ [')'])) := by
      rw [one_and, String.toList_append, String.toList_append]; rfl
    show (digits ((one_and s).toList.takeWhile _), digits ((one_and s).toList.dropWhile _)) = _
    rw [h]
    show (digits ['(', '1'], digits ([',', ' '] ++ ((toString (texts.one s)).toList ++ [')']))) = _
    rw [digits_append _ _ (by decide), digits_toString _ _ (by decide)]
    have : digits ['(', '1'] = 1 := by decide
    rw [this]
  · intro s
    have h : (twice s).toList = ['('] ++ ((toString (texts.one s)).toList ++ ',' :: (' ' ::
        ((toString (texts.one s)).toList ++ [')']))) := by
      rw [twice, String.toList_append, String.toList_append, String.toList_append, String.toList_append]
      simp
    have hp : ∀ ch ∈ ['('], (ch != ',') = true := by decide
    show (digits ((twice s).toList.takeWhile _), digits ((twice s).toList.dropWhile _)) = _
    rw [h, List.takeWhile_append_of_pos hp, List.dropWhile_append_of_pos hp, (take_number _ _).1, (take_number _ _).2,
      digits_append _ _ (by decide), ← List.append_nil (toString (texts.one s)).toList, digits_toString _ _ (by decide)]
    show (_, digits ([',', ' '] ++ ((toString (texts.one s)).toList ++ [] ++ [')']))) = _
    rw [digits_append _ _ (by decide), List.append_nil, digits_toString _ _ (by decide)]
  · intro s h
    have : s ≠ "relu" := by
      rintro rfl
      revert h
      decide +kernel
    funext x
    exact if_neg this
  · rfl
  · intro s axis x
    by_cases h : s = "relu"
    · refine ⟨{ x with val := fun n i j c => max 0 (x.val n i j c) }, if_pos h, (if_pos h).trans ?_⟩
      unfold squeezeDims
      split_ifs <;> rfl
    · exact ⟨x, if_neg h, if_neg h⟩

/-- Signals of two channels, through a separable convolution of kernel size 2 and stride 2 with two outputs per channel,
two filters, a bias and a `relu`. -/
def separableModel (fmt : String) : Graph (Weight ℤ) (Meta String) :=
  { functional := false
    layers := [⟨"in", "InputLayer", [], []⟩,
      ⟨"sep", "SeparableConv1D", [("filters", "2"), ("kernel_size", "(2,)"), ("strides", "(2,)"), ("padding", "same"),
        ("data_format", fmt), ("dilation_rate", "(1,)"), ("depth_multiplier", "2"), ("activation", "relu"),
        ("use_bias", "True")], []⟩]
    outputs := []
    weights := fun n => if n = "sep" then
        [("depthwise", .three [[[1, 2], [-1, 3]], [[2, 0], [5, -4]]]), ("pointwise", .three [[[1, -1], [2, 1], [3, 0], [1, 1]]]),
         ("bias", .vec [7, 20])] else []
    metadata := fun _ => none
    candidates := [] }

def noLayers : Semantics (Weight ℤ) (Act ℤ) := fun _ _ _ args _ => firstArg args

def separableTransforms : List (Transform (Weight ℤ) (Meta String)) :=
  transforms autoName allClasses Weight.expand one_and twice

def separableCheck (fmt : String) (p : Graph (Weight ℤ) (Meta String) → Bool) : Bool :=
  match run metaEq8 separableTransforms 200 (start separableTransforms (separableModel fmt)) with
  | some (.ok g') => p g'
  | _ => false

/-- Some signals. -/
def signals (fmt : String) : Act ℤ :=
  .signal ((⟨1, 3, 2, fun _ j c => 2 * j - 3 * c⟩ : Signal ℤ).ofLast fmt)

/-- The values of a batch of one signal with two positions and two channels. -/
def values (x : Act ℤ) : ℕ × ℕ × ℕ × List ℤ :=
  let y := x.signals
  (y.d0, y.d1, y.d2, [y.val 0 0 0, y.val 0 0 1, y.val 0 1 0, y.val 0 1 1])

end Example

open Example in
/-- The hypotheses of C114 are met: the layer is split into a `Lambda`, a `DepthwiseConv2D`, a `Conv2D` and a `Lambda`, and
computes the same four numbers. -/
example : Spec.Meaning texts one_and twice ∧ Spec.SequentialModel (separableModel "channels_first") ∧
    Spec.FreshNames autoName ((separableModel "channels_first").layers.map (·.name)) ∧
    separableCheck "channels_first" (fun g' => decide (
      g'.layers.map (·.cls) = ["InputLayer", "QuantizeLayer", "Lambda", "DepthwiseConv2D", "Conv2D", "Lambda"] ∧
      values (Spec.sequentialValue (Spec.layersOf texts noLayers) g' (signals "channels_first")) =
        (1, 2, 2, [0, 27, 11, 27]))) = true ∧
    values (Spec.sequentialValue (Spec.layersOf texts noLayers) (separableModel "channels_first")
        (signals "channels_first")) = (1, 2, 2, [0, 27, 11, 27]) ∧
    values (Spec.sequentialValue (Spec.layersOf texts noLayers) (separableModel "channels_last")
        (signals "channels_last")) = (1, 2, 2, [0, 11, 27, 27]) := by
  refine ⟨texts_meaning, ⟨rfl, ?_, ?_, ?_, ?_⟩, Aux.freshNames_autoName _ (by decide), by decide +kernel,
    by decide +kernel, by decide +kernel⟩
  · unfold Spec.UniqueNames; decide
  · decide
  · intro l hl h
    simp only [separableModel, List.mem_cons, List.not_mem_nil, or_false] at hl
    rcases hl with rfl | rfl
    · simp at h
    · unfold Spec.SepWeights; decide +kernel
  · intro n h
    have := h _ (List.mem_cons_of_mem _ (List.mem_singleton.2 rfl))
    exact if_neg (Ne.symm this)

end Verif.Props
