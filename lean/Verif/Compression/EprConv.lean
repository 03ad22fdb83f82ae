import Mathlib.Analysis.SpecialFunctions.Complex.Circle
import Mathlib.Analysis.SpecialFunctions.Sqrt

/-!
# Entropy penalized reparameterization of convolution kernels

`common/keras/compression/algorithms/epr.py` lines 36-80, 109-164, 214-345.  Paths are relative to
`/repo/tensorflow_model_optimization/python/core/`.

A kernel is a function of its indices; its dimensions are given separately, and only the entries in range
matter.  A complex number stands for the pair of real numbers it is `bitcast` to.  Exact arithmetic; the
entropy coder is taken as lossless.
-/

namespace Verif.Compression
open Complex

/-- `exp (-2πi kn/N)`. -/
noncomputable def twiddle (N k n : ℕ) : ℂ := exp (-(2 * Real.pi * I * k * n / N))

/-- Discrete Fourier transform of length `N`. -/
noncomputable def dft (N : ℕ) (x : ℕ → ℂ) (k : ℕ) : ℂ := ∑ n ∈ Finset.range N, x n * twiddle N k n

/-- Its inverse. -/
noncomputable def idft (N : ℕ) (X : ℕ → ℂ) (n : ℕ) : ℂ :=
  (∑ k ∈ Finset.range N, X k * (starRingEnd ℂ) (twiddle N k n)) / N

/-- `tf.signal.rfft`: the coefficients 0 to `N/2` of the transform of a real signal. -/
noncomputable def rfft (N : ℕ) (x : ℕ → ℝ) (k : ℕ) : ℂ := dft N (fun n => (x n : ℂ)) k

/-- `tf.signal.irfft` with `fft_length = N`: the other half of the spectrum is the conjugate of the given
one; imaginary parts of the coefficients 0 and `N/2` do not contribute. -/
noncomputable def irfft (N : ℕ) (X : ℕ → ℂ) (n : ℕ) : ℝ :=
  (∑ k ∈ Finset.range (N / 2 + 1),
    (if k = 0 ∨ 2 * k = N then 1 else 2) * (X k * (starRingEnd ℂ) (twiddle N k n)).re) / N

/-- `tf.signal.rfft2d`. -/
noncomputable def rfft2d (H W : ℕ) (x : ℕ → ℕ → ℝ) (k l : ℕ) : ℂ := dft H (fun h => rfft W (x h) l) k

/-- `tf.signal.irfft2d` with `fft_length = (H, W)`: the inverse transform along the first axis, then the
real inverse along the second. -/
noncomputable def irfft2d (H W : ℕ) (X : ℕ → ℕ → ℂ) (h w : ℕ) : ℝ :=
  irfft W (fun l => idft H (fun k => X k l) h) w

/-- `kernel_rdft` for a 2D convolution, `epr.py` lines 125-133: the transform of each filter, over
`sqrt (H * W)`. -/
noncomputable def eprInit2 (H W : ℕ) (K : ℕ → ℕ → ℕ → ℕ → ℝ) (i o k l : ℕ) : ℂ :=
  rfft2d H W (fun h w => K h w i o) k l / (Real.sqrt ((H * W : ℕ) : ℝ) : ℂ)

/-- `kernel_rdft` for a 1D convolution. -/
noncomputable def eprInit1 (L : ℕ) (K : ℕ → ℕ → ℕ → ℝ) (i o k : ℕ) : ℂ :=
  rfft L (fun t => K t i o) k / (Real.sqrt (L : ℝ) : ℂ)

/-- `round_st(kernel_rdft / step)` of one coefficient; `logStep` is a pair, for the real and the imaginary
part (`prior_shape = kernel_rdft.shape[2:]`, `epr.py` line 150, includes the last axis of length 2). -/
noncomputable def eprSymbol (round : ℝ → ℤ) (z : ℂ) (logStep : ℝ × ℝ) : ℤ × ℤ :=
  (round (z.re / Real.exp logStep.1), round (z.im / Real.exp logStep.2))

/-- `kernel_rdft * step` of one quantized coefficient. -/
noncomputable def eprValue (q : ℤ × ℤ) (logStep : ℝ × ℝ) : ℂ :=
  ⟨q.1 * Real.exp logStep.1, q.2 * Real.exp logStep.2⟩

/-- `_transform_conv_weight(quantized=True)`, `epr.py` lines 54-80, for a 2D kernel. -/
noncomputable def eprKernel2 (H W : ℕ) (q : ℕ → ℕ → ℕ → ℕ → ℤ × ℤ) (logStep : ℕ → ℕ → ℝ × ℝ)
    (h w i o : ℕ) : ℝ :=
  irfft2d H W (fun k l => eprValue (q i o k l) (logStep k l) * (Real.sqrt ((H * W : ℕ) : ℝ) : ℂ)) h w

/-- `_transform_conv_weight(quantized=True)`, for a 1D kernel. -/
noncomputable def eprKernel1 (L : ℕ) (q : ℕ → ℕ → ℕ → ℤ × ℤ) (logStep : ℕ → ℝ × ℝ) (t i o : ℕ) : ℝ :=
  irfft L (fun k => eprValue (q i o k) (logStep k) * (Real.sqrt (L : ℝ) : ℂ)) t

/-- `project_training_weights`: the kernel used in training, for the latent `Z`. -/
noncomputable def eprProject2 (round : ℝ → ℤ) (H W : ℕ) (Z : ℕ → ℕ → ℕ → ℕ → ℂ)
    (logStep : ℕ → ℕ → ℝ × ℝ) : ℕ → ℕ → ℕ → ℕ → ℝ :=
  eprKernel2 H W (fun i o k l => eprSymbol round (Z i o k l) (logStep k l)) logStep

/-- `project_training_weights`, `epr.py` lines 301-307, for a 1D kernel. -/
noncomputable def eprProject1 (round : ℝ → ℤ) (L : ℕ) (Z : ℕ → ℕ → ℕ → ℂ)
    (logStep : ℕ → ℝ × ℝ) : ℕ → ℕ → ℕ → ℝ :=
  eprKernel1 L (fun i o k => eprSymbol round (Z i o k) (logStep k)) logStep

/-- What `compress_training_weights` returns for a 2D kernel (`epr.py` lines 226-244, 309-324): the coded
symbols of `channels` filters, the shape as `uint16`, the logarithms of the steps as `float16`. -/
structure EprConv where
  symbols : ℕ → ℕ → ℕ → ℕ → ℤ × ℤ
  channels : ℕ
  shape : ℕ × ℕ × ℕ × ℕ
  logStep : ℕ → ℕ → ℝ × ℝ

/-- `compress_training_weights`, `epr.py` lines 226-244, 309-324: `shape` is cast to `uint16` (wraps around) and the
logarithms of the steps to `float16` (`half`). -/
noncomputable def eprConvCompress (round : ℝ → ℤ) (half : ℝ → ℝ) (shape : ℕ × ℕ × ℕ × ℕ)
    (Z : ℕ → ℕ → ℕ → ℕ → ℂ) (logStep : ℕ → ℕ → ℝ × ℝ) : EprConv :=
  { symbols := fun i o k l => eprSymbol round (Z i o k l) (logStep k l)
    channels := shape.2.2.1 * shape.2.2.2
    shape := (shape.1 % 65536, shape.2.1 % 65536, shape.2.2.1 % 65536, shape.2.2.2 % 65536)
    logStep := fun k l => (half (logStep k l).1, half (logStep k l).2) }

/-- `decompress_weights` (`epr.py` lines 246-273, 326-345) for a 2D kernel: the number of filters read is taken from the stored shape and must
be the number of filters written. -/
noncomputable def eprConvDecompress (c : EprConv) :
    Option ((ℕ × ℕ × ℕ × ℕ) × (ℕ → ℕ → ℕ → ℕ → ℝ)) :=
  if c.shape.2.2.1 * c.shape.2.2.2 = c.channels then
    some (c.shape, eprKernel2 c.shape.1 c.shape.2.1 c.symbols c.logStep)
  else none

end Verif.Compression
