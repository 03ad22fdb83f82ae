import Verif.Compression.EprConv
import Verif.Props.CompressionSchedules
import Mathlib.Algebra.Field.GeomSum
import Mathlib.Tactic.NormNum
import Mathlib.Tactic.Positivity
import Mathlib.Tactic.Linarith

/-!
# C79: entropy penalized reparameterization of convolution kernels
-/

set_option linter.unusedSectionVars false

namespace Verif.Props
open Verif.Compression Complex

/-! ### The discrete Fourier transform -/

theorem Aux.twiddle_mul (N k m n : ℕ) :
    twiddle N k m * (starRingEnd ℂ) (twiddle N k n) =
      exp (2 * Real.pi * I * (((n : ℤ) - (m : ℤ) : ℤ) : ℂ) / N) ^ k := by
  unfold twiddle
  rw [← exp_conj, ← exp_add, ← exp_nat_mul]
  congr 1
  simp only [map_neg, map_div₀, map_mul, conj_ofReal, conj_I, map_natCast, map_ofNat]
  push_cast
  ring

/-- Orthogonality. -/
theorem Aux.twiddle_sum (N m n : ℕ) (hm : m < N) (hn : n < N) :
    ∑ k ∈ Finset.range N, twiddle N k m * (starRingEnd ℂ) (twiddle N k n) = if m = n then (N : ℂ) else 0 := by
  simp only [Aux.twiddle_mul]
  have hN : (N : ℂ) ≠ 0 := by exact_mod_cast (by omega : N ≠ 0)
  split_ifs with h
  · subst h; simp
  · have h1 : exp (2 * Real.pi * I * (((n : ℤ) - (m : ℤ) : ℤ) : ℂ) / N) ≠ 1 := by
      intro he
      obtain ⟨j, hj⟩ := exp_eq_one_iff.1 he
      have h2 : (2 * Real.pi * I : ℂ) ≠ 0 := two_pi_I_ne_zero
      have h3 : ((((n : ℤ) - (m : ℤ) : ℤ)) : ℂ) = ((j * N : ℤ) : ℂ) := by
        field_simp at hj
        push_cast at hj ⊢
        linear_combination hj
      have h4 : (n : ℤ) - (m : ℤ) = j * N := by exact_mod_cast h3
      rcases lt_trichotomy j 0 with h | h | h
      · nlinarith
      · subst h; omega
      · nlinarith
    rw [geom_sum_eq h1, ← exp_nat_mul]
    have h5 : (N : ℂ) * (2 * Real.pi * I * (((n : ℤ) - (m : ℤ) : ℤ) : ℂ) / N) =
        (((n : ℤ) - (m : ℤ) : ℤ) : ℂ) * (2 * Real.pi * I) := by
      field_simp
    rw [h5, exp_int_mul_two_pi_mul_I, sub_self, zero_div]

/-- The transform of a signal determines it. -/
theorem Aux.idft_dft (N : ℕ) (x : ℕ → ℂ) (n : ℕ) (hn : n < N) : idft N (dft N x) n = x n := by
  have hN : (N : ℂ) ≠ 0 := by exact_mod_cast (by omega : N ≠ 0)
  unfold idft dft
  simp only [Finset.sum_mul]
  rw [Finset.sum_comm]
  have : ∀ m ∈ Finset.range N, ∑ k ∈ Finset.range N, x m * twiddle N k m * (starRingEnd ℂ) (twiddle N k n) =
      if m = n then x m * N else 0 := by
    intro m hm
    simp only [mul_assoc]
    rw [← Finset.mul_sum, Aux.twiddle_sum N m n (Finset.mem_range.1 hm) hn]
    split_ifs <;> simp
  rw [Finset.sum_congr rfl this, Finset.sum_ite_eq' (Finset.range N) n, if_pos (Finset.mem_range.2 hn)]
  field_simp

/-- Folding a symmetric sum onto its first half. -/
theorem Aux.fold_sum (N : ℕ) (hN : 0 < N) (g : ℕ → ℝ) (hg : ∀ k, 1 ≤ k → k < N → g (N - k) = g k) :
    ∑ k ∈ Finset.range (N / 2 + 1), (if k = 0 ∨ 2 * k = N then 1 else 2) * g k =
      ∑ k ∈ Finset.range N, g k := by
  have h1 : ∑ k ∈ Finset.range (N / 2 + 1), (if k = 0 ∨ 2 * k = N then (1 : ℝ) else 2) * g k =
      ∑ k ∈ Finset.range (N / 2 + 1), g k +
        ∑ k ∈ (Finset.range (N / 2 + 1)).filter (fun k => ¬ (k = 0 ∨ 2 * k = N)), g k := by
    rw [Finset.sum_filter, ← Finset.sum_add_distrib]
    refine Finset.sum_congr rfl fun k _ => ?_
    by_cases h : k = 0 ∨ 2 * k = N
    · rw [if_pos h, if_neg (not_not.2 h)]; ring
    · rw [if_neg h, if_pos h]; ring
  have h2 : ∑ k ∈ (Finset.range (N / 2 + 1)).filter (fun k => ¬ (k = 0 ∨ 2 * k = N)), g k =
      ∑ k ∈ Finset.Ico (N / 2 + 1) N, g k := by
    refine Finset.sum_nbij' (fun k => N - k) (fun k => N - k) ?_ ?_ ?_ ?_ ?_
    · intro k hk
      simp only [Finset.mem_filter, Finset.mem_range, Finset.mem_Ico] at hk ⊢
      omega
    · intro k hk
      simp only [Finset.mem_filter, Finset.mem_range, Finset.mem_Ico] at hk ⊢
      omega
    · intro k hk
      simp only [Finset.mem_filter, Finset.mem_range] at hk
      omega
    · intro k hk
      simp only [Finset.mem_Ico] at hk
      omega
    · intro k hk
      simp only [Finset.mem_filter, Finset.mem_range] at hk
      exact (hg k (by omega) (by omega)).symm
  rw [h1, h2]
  rw [Finset.range_eq_Ico, Finset.range_eq_Ico]
  exact Finset.sum_Ico_consecutive g (Nat.zero_le _) (by omega)

theorem Aux.twiddle_sub (N k n : ℕ) (hN : 0 < N) (hk : k ≤ N) :
    twiddle N (N - k) n = (starRingEnd ℂ) (twiddle N k n) := by
  have hN' : (N : ℂ) ≠ 0 := by exact_mod_cast hN.ne'
  unfold twiddle
  rw [← exp_conj]
  have e : -(2 * Real.pi * I * ((N - k : ℕ) : ℂ) * n / N : ℂ) =
      (starRingEnd ℂ) (-(2 * Real.pi * I * k * n / N)) + ((-(n : ℤ) : ℤ) : ℂ) * (2 * Real.pi * I) := by
    simp only [map_neg, map_div₀, map_mul, conj_ofReal, conj_I, map_natCast, map_ofNat]
    rw [Nat.cast_sub hk]
    push_cast
    field_simp
    ring
  rw [e, exp_add, exp_int_mul_two_pi_mul_I, mul_one]

/-- The real transform of a real signal determines it, for even and odd lengths. -/
theorem Aux.irfft_rfft (N : ℕ) (x : ℕ → ℝ) (n : ℕ) (hn : n < N) : irfft N (rfft N x) n = x n := by
  have hN : 0 < N := by omega
  have hN' : (N : ℝ) ≠ 0 := by exact_mod_cast hN.ne'
  have hg : ∀ k, 1 ≤ k → k < N →
      (rfft N x (N - k) * (starRingEnd ℂ) (twiddle N (N - k) n)).re =
        (rfft N x k * (starRingEnd ℂ) (twiddle N k n)).re := by
    intro k _ h2
    have e : rfft N x (N - k) = (starRingEnd ℂ) (rfft N x k) := by
      unfold rfft dft
      rw [map_sum]
      refine Finset.sum_congr rfl fun m _ => ?_
      rw [map_mul, conj_ofReal, Aux.twiddle_sub N k m hN h2.le]
    rw [e, Aux.twiddle_sub N k n hN h2.le, ← map_mul, conj_re]
  unfold irfft
  rw [Aux.fold_sum N hN (fun k => (rfft N x k * (starRingEnd ℂ) (twiddle N k n)).re) hg]
  have h := congrArg re (Aux.idft_dft N (fun m => (x m : ℂ)) n hn)
  unfold idft at h
  rw [ofReal_re] at h
  rw [← h]
  unfold rfft
  rw [← Complex.re_sum]
  rw [show (N : ℂ) = ((N : ℝ) : ℂ) by simp, Complex.div_ofReal_re]

theorem Aux.irfft2d_rfft2d (H W : ℕ) (x : ℕ → ℕ → ℝ) (h w : ℕ) (hh : h < H) (hw : w < W) :
    irfft2d H W (rfft2d H W x) h w = x h w := by
  unfold irfft2d
  have e : (fun l => idft H (fun k => rfft2d H W x k l) h) = rfft W (x h) := by
    funext l
    exact Aux.idft_dft H (fun h' => rfft W (x h') l) h hh
  rw [e, Aux.irfft_rfft W (x h) w hw]

/-! ### Sizes -/

theorem Aux.norm_twiddle (N k n : ℕ) : ‖twiddle N k n‖ = 1 := by
  unfold twiddle
  have e : -(2 * Real.pi * I * k * n / N : ℂ) = ((-(2 * Real.pi * k * n / N) : ℝ) : ℂ) * I := by
    push_cast; ring
  rw [e, Complex.norm_exp_ofReal_mul_I]

theorem Aux.idft_le (N : ℕ) (hN : 0 < N) (X : ℕ → ℂ) (B : ℝ) (hX : ∀ k < N, ‖X k‖ ≤ B) (n : ℕ) :
    ‖idft N X n‖ ≤ B := by
  have hN' : (0 : ℝ) < N := by exact_mod_cast hN
  unfold idft
  rw [norm_div, Complex.norm_natCast, div_le_iff₀ hN']
  refine (norm_sum_le _ _).trans ?_
  have : ∀ k ∈ Finset.range N, ‖X k * (starRingEnd ℂ) (twiddle N k n)‖ ≤ B := by
    intro k hk
    rw [norm_mul, Complex.norm_conj, Aux.norm_twiddle, mul_one]
    exact hX k (Finset.mem_range.1 hk)
  refine (Finset.sum_le_sum this).trans ?_
  rw [Finset.sum_const, Finset.card_range, nsmul_eq_mul, mul_comm]

theorem Aux.irfft_le (N : ℕ) (hN : 0 < N) (X : ℕ → ℂ) (B : ℝ) (hX : ∀ k < N / 2 + 1, ‖X k‖ ≤ B) (n : ℕ) :
    |irfft N X n| ≤ B := by
  have hN' : (0 : ℝ) < N := by exact_mod_cast hN
  unfold irfft
  rw [abs_div, abs_of_pos hN', div_le_iff₀ hN']
  refine (Finset.abs_sum_le_sum_abs _ _).trans ?_
  have : ∀ k ∈ Finset.range (N / 2 + 1),
      |(if k = 0 ∨ 2 * k = N then (1 : ℝ) else 2) * (X k * (starRingEnd ℂ) (twiddle N k n)).re| ≤
        (if k = 0 ∨ 2 * k = N then (1 : ℝ) else 2) * B := by
    intro k hk
    have hw : (0 : ℝ) ≤ if k = 0 ∨ 2 * k = N then (1 : ℝ) else 2 := by split_ifs <;> norm_num
    rw [abs_mul, abs_of_nonneg hw]
    refine mul_le_mul_of_nonneg_left ?_ hw
    refine (Complex.abs_re_le_norm _).trans ?_
    rw [norm_mul, Complex.norm_conj, Aux.norm_twiddle, mul_one]
    exact hX k (Finset.mem_range.1 hk)
  refine (Finset.sum_le_sum this).trans ?_
  rw [Aux.fold_sum N hN (fun _ => B) (fun _ _ _ => rfl), Finset.sum_const, Finset.card_range,
    nsmul_eq_mul, mul_comm]

theorem Aux.idft_sub (N : ℕ) (X Y : ℕ → ℂ) (n : ℕ) :
    idft N X n - idft N Y n = idft N (fun k => X k - Y k) n := by
  unfold idft
  rw [← sub_div, ← Finset.sum_sub_distrib]
  simp only [sub_mul]

theorem Aux.irfft_sub (N : ℕ) (X Y : ℕ → ℂ) (n : ℕ) :
    irfft N X n - irfft N Y n = irfft N (fun k => X k - Y k) n := by
  unfold irfft
  rw [← sub_div, ← Finset.sum_sub_distrib]
  congr 1
  refine Finset.sum_congr rfl fun k _ => ?_
  rw [← mul_sub, ← Complex.sub_re, ← sub_mul]

/-- Quantizing one coefficient. -/
theorem Aux.eprValue_close (round : ℝ → ℤ) (hround : Spec.RoundsToNearest round) (z : ℂ)
    (ls : ℝ × ℝ) (S : ℝ) (h1 : Real.exp ls.1 ≤ S) (h2 : Real.exp ls.2 ≤ S) :
    ‖eprValue (eprSymbol round z ls) ls - z‖ ≤ S / Real.sqrt 2 := by
  have key : ∀ x l : ℝ, Real.exp l ≤ S →
      |(round (x / Real.exp l) : ℝ) * Real.exp l - x| ≤ S / 2 := by
    intro x l hl
    have he := Real.exp_pos l
    have h := hround (x / Real.exp l)
    have e : (round (x / Real.exp l) : ℝ) * Real.exp l - x =
        ((round (x / Real.exp l) : ℝ) - x / Real.exp l) * Real.exp l := by field_simp
    rw [e, abs_mul, abs_of_pos he]
    nlinarith
  have hS : 0 < S := lt_of_lt_of_le (Real.exp_pos _) h1
  have a1 := sq_le_sq' (abs_le.1 (key z.re ls.1 h1)).1 (abs_le.1 (key z.re ls.1 h1)).2
  have a2 := sq_le_sq' (abs_le.1 (key z.im ls.2 h2)).1 (abs_le.1 (key z.im ls.2 h2)).2
  rw [Complex.norm_eq_sqrt_sq_add_sq]
  refine Real.sqrt_le_iff.2 ⟨by positivity, ?_⟩
  rw [div_pow, Real.sq_sqrt (by norm_num : (0 : ℝ) ≤ 2)]
  simp only [eprValue, eprSymbol, Complex.sub_re, Complex.sub_im]
  linarith

/-! ### C79 -/

/-- **C79 (convolution: the latent loses nothing).**  The latent of a pretrained convolution kernel, not
quantized, transforms back into exactly this kernel, whatever its sizes (even and odd). -/
theorem C79_conv_lossless (H W : ℕ) (K : ℕ → ℕ → ℕ → ℕ → ℝ) (h w i o : ℕ) (hh : h < H) (hw : w < W) :
    irfft2d H W (fun k l => eprInit2 H W K i o k l * (Real.sqrt ((H * W : ℕ) : ℝ) : ℂ)) h w =
      K h w i o := by
  have hpos : (0 : ℝ) < ((H * W : ℕ) : ℝ) := by
    exact_mod_cast Nat.mul_pos (by omega : 0 < H) (by omega : 0 < W)
  have hs : ((Real.sqrt ((H * W : ℕ) : ℝ) : ℝ) : ℂ) ≠ 0 := by
    exact_mod_cast (Real.sqrt_pos.2 hpos).ne'
  have e : (fun k l => eprInit2 H W K i o k l * (Real.sqrt ((H * W : ℕ) : ℝ) : ℂ)) =
      rfft2d H W (fun h w => K h w i o) := by
    funext k l
    unfold eprInit2
    exact div_mul_cancel₀ _ hs
  rw [e, Aux.irfft2d_rfft2d H W _ h w hh hw]

/-- **C79 (convolution: accuracy).**  If no quantization step is larger than `S`, the kernel the training
model starts with differs from the pretrained kernel by at most `S * sqrt (H * W / 2)` at every position. -/
theorem C79_conv_accuracy (round : ℝ → ℤ) (hround : Spec.RoundsToNearest round) (H W : ℕ)
    (K : ℕ → ℕ → ℕ → ℕ → ℝ) (logStep : ℕ → ℕ → ℝ × ℝ) (S : ℝ)
    (hS : ∀ k l, Real.exp (logStep k l).1 ≤ S ∧ Real.exp (logStep k l).2 ≤ S)
    (h w i o : ℕ) (hh : h < H) (hw : w < W) :
    |eprProject2 round H W (eprInit2 H W K) logStep h w i o - K h w i o| ≤
      S * Real.sqrt (((H * W : ℕ) : ℝ) / 2) := by
  have hpos : (0 : ℝ) ≤ ((H * W : ℕ) : ℝ) := Nat.cast_nonneg _
  conv_lhs => rw [← C79_conv_lossless H W K h w i o hh hw]
  unfold eprProject2 eprKernel2 irfft2d
  rw [Aux.irfft_sub]
  refine Aux.irfft_le W (by omega) _ _ (fun l _ => ?_) w
  rw [Aux.idft_sub]
  refine Aux.idft_le H (by omega) _ _ (fun k _ => ?_) h
  rw [← sub_mul, norm_mul, Complex.norm_real, Real.norm_of_nonneg (Real.sqrt_nonneg _)]
  have := Aux.eprValue_close round hround (eprInit2 H W K i o k l) (logStep k l) S (hS k l).1 (hS k l).2
  calc _ ≤ S / Real.sqrt 2 * Real.sqrt ((H * W : ℕ) : ℝ) :=
        mul_le_mul_of_nonneg_right this (Real.sqrt_nonneg _)
    _ = S * Real.sqrt (((H * W : ℕ) : ℝ) / 2) := by
        rw [Real.sqrt_div hpos]; ring

/-- The same for one-dimensional convolutions of length `L`. -/
theorem C79_conv1d_accuracy (round : ℝ → ℤ) (hround : Spec.RoundsToNearest round) (L : ℕ)
    (K : ℕ → ℕ → ℕ → ℝ) (logStep : ℕ → ℝ × ℝ) (S : ℝ)
    (hS : ∀ k, Real.exp (logStep k).1 ≤ S ∧ Real.exp (logStep k).2 ≤ S) (t i o : ℕ) (ht : t < L) :
    irfft L (fun k => eprInit1 L K i o k * (Real.sqrt (L : ℝ) : ℂ)) t = K t i o ∧
    |eprProject1 round L (eprInit1 L K) logStep t i o - K t i o| ≤ S * Real.sqrt ((L : ℝ) / 2) := by
  have hpos : (0 : ℝ) < (L : ℝ) := by exact_mod_cast (by omega : 0 < L)
  have hs : ((Real.sqrt (L : ℝ) : ℝ) : ℂ) ≠ 0 := by
    exact_mod_cast (Real.sqrt_pos.2 hpos).ne'
  have e : (fun k => eprInit1 L K i o k * (Real.sqrt (L : ℝ) : ℂ)) = rfft L (fun t => K t i o) := by
    funext k
    unfold eprInit1
    exact div_mul_cancel₀ _ hs
  have h0 : irfft L (fun k => eprInit1 L K i o k * (Real.sqrt (L : ℝ) : ℂ)) t = K t i o := by
    rw [e, Aux.irfft_rfft L _ t ht]
  refine ⟨h0, ?_⟩
  conv_lhs => rw [← h0]
  unfold eprProject1 eprKernel1
  rw [Aux.irfft_sub]
  refine Aux.irfft_le L (by omega) _ _ (fun k _ => ?_) t
  rw [← sub_mul, norm_mul, Complex.norm_real, Real.norm_of_nonneg (Real.sqrt_nonneg _)]
  have := Aux.eprValue_close round hround (eprInit1 L K i o k) (logStep k) S (hS k).1 (hS k).2
  calc _ ≤ S / Real.sqrt 2 * Real.sqrt (L : ℝ) :=
        mul_le_mul_of_nonneg_right this (Real.sqrt_nonneg _)
    _ = S * Real.sqrt ((L : ℝ) / 2) := by
        rw [Real.sqrt_div hpos.le]; ring

/-- **C79 (convolution: round trip), partial.**  If `float16` represents the logarithms of the steps exactly
and every dimension is below 2^16, the decompressed kernel is exactly the kernel of the last training step,
for every latent (trained in any way), in the right shape. -/
theorem C79_conv_roundtrip_partial (round : ℝ → ℤ) (half : ℝ → ℝ) (H W I O : ℕ)
    (Z : ℕ → ℕ → ℕ → ℕ → ℂ) (logStep : ℕ → ℕ → ℝ × ℝ)
    (hhalf : ∀ k l, half (logStep k l).1 = (logStep k l).1 ∧ half (logStep k l).2 = (logStep k l).2)
    (hH : H < 2 ^ 16) (hW : W < 2 ^ 16) (hI : I < 2 ^ 16) (hO : O < 2 ^ 16) :
    eprConvDecompress (eprConvCompress round half (H, W, I, O) Z logStep) =
      some ((H, W, I, O), eprProject2 round H W Z logStep) := by
  have e : (fun k l => (half (logStep k l).1, half (logStep k l).2)) = logStep := by
    funext k l
    rw [(hhalf k l).1, (hhalf k l).2]
  unfold eprConvDecompress eprConvCompress
  dsimp only
  norm_num at hH hW hI hO
  rw [Nat.mod_eq_of_lt hH, Nat.mod_eq_of_lt hW, Nat.mod_eq_of_lt hI, Nat.mod_eq_of_lt hO, if_pos rfl, e]
  rfl

/-- **C79 (convolution: violated for large dimensions).**  A kernel with a multiple of 2^16 output channels
cannot be decompressed. -/
theorem C79_conv_shape_violated (round : ℝ → ℤ) (half : ℝ → ℝ) (H W I n : ℕ) (hI : 0 < I) (hn : 0 < n)
    (Z : ℕ → ℕ → ℕ → ℕ → ℂ) (logStep : ℕ → ℕ → ℝ × ℝ) :
    eprConvDecompress (eprConvCompress round half (H, W, I, 65536 * n) Z logStep) = none := by
  unfold eprConvDecompress eprConvCompress
  dsimp only
  rw [Nat.mul_mod_right, Nat.mul_zero, if_neg]
  positivity

/-- The initial steps, `exp (-4)`, of a 3 × 2 convolution: rounding to nearest, all hypotheses hold. -/
example : Spec.RoundsToNearest (fun x : ℝ => _root_.round x) ∧
    (∀ _k _l : ℕ, Real.exp ((-4 : ℝ), (-4 : ℝ)).1 ≤ Real.exp (-4) ∧
      Real.exp ((-4 : ℝ), (-4 : ℝ)).2 ≤ Real.exp (-4)) :=
  ⟨fun x => by rw [abs_sub_comm]; exact abs_sub_round x, fun _ _ => ⟨le_refl _, le_refl _⟩⟩

end Verif.Props
