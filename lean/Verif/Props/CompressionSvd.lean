import Verif.Compression.Algorithms
import Verif.Props.CompressionSchedules
import Mathlib.LinearAlgebra.Matrix.Rank
import Mathlib.LinearAlgebra.Matrix.Trace
import Mathlib.Analysis.InnerProductSpace.PiL2
import Mathlib.LinearAlgebra.Matrix.Notation

/-!
# C78: what SVD compression keeps

`svdDecompress (svdCompress r s u v)` is the weight that the compressed layer computes with, for a
weight `w` with the singular value decomposition `s, u, v` (`IsSvd`, the contract of
`tf.linalg.svd`).
-/

set_option linter.unusedSectionVars false

namespace Verif.Props
open Verif.Compression Matrix

/-! ## Specification -/

/-- The squared error: the sum of the squares of the entries. -/
def Spec.squares {m n : ℕ} (a : Matrix (Fin m) (Fin n) ℝ) : ℝ := ∑ i, ∑ j, a i j ^ 2

/-! ## Helper lemmas -/

theorem Aux.squares_trace {m n : ℕ} (a : Matrix (Fin m) (Fin n) ℝ) :
    Spec.squares a = trace (aᵀ * a) := by
  simp only [Spec.squares, trace, diag, mul_apply, transpose_apply]
  rw [Finset.sum_comm]
  exact Finset.sum_congr rfl fun _ _ => Finset.sum_congr rfl fun _ _ => by ring

theorem Aux.squares_nonneg {m n : ℕ} (a : Matrix (Fin m) (Fin n) ℝ) : 0 ≤ Spec.squares a :=
  Finset.sum_nonneg fun _ _ => Finset.sum_nonneg fun _ _ => sq_nonneg _

theorem Aux.squares_svd {m n k : ℕ} (t : Fin k → ℝ) (u : Matrix (Fin m) (Fin k) ℝ)
    (v : Matrix (Fin n) (Fin k) ℝ) (hu : uᵀ * u = 1) (hv : vᵀ * v = 1) :
    Spec.squares (u * diagonal t * vᵀ) = ∑ i, t i ^ 2 := by
  rw [Aux.squares_trace]
  have e : (u * diagonal t * vᵀ)ᵀ * (u * diagonal t * vᵀ) =
      v * (diagonal t * (uᵀ * u) * diagonal t * vᵀ) := by
    simp only [transpose_mul, transpose_transpose, diagonal_transpose, Matrix.mul_assoc]
  rw [e, hu, trace_mul_comm, Matrix.mul_one, Matrix.mul_assoc, hv, Matrix.mul_one,
    diagonal_mul_diagonal, trace_diagonal]
  exact Finset.sum_congr rfl fun _ _ => by ring

/-- The decompressed weight is the weight with all but the first `r` singular values removed. -/
theorem Aux.decompress_eq {m n k : ℕ} (r : ℕ) (s : Fin k → ℝ) (u : Matrix (Fin m) (Fin k) ℝ)
    (v : Matrix (Fin n) (Fin k) ℝ) :
    svdDecompress (svdCompress r s u v) =
      u * diagonal (fun i : Fin k => if (i : ℕ) < r then s i else 0) * vᵀ := by
  ext a b
  simp only [svdDecompress, svdCompress, mul_apply, diagonal_apply, submatrix_apply, id,
    transpose_apply, ite_mul, mul_ite, zero_mul, mul_zero, Finset.sum_ite_eq,
    Finset.sum_ite_eq', Finset.mem_univ, if_true]
  refine Finset.sum_of_injOn (keep r k) ?_ ?_ ?_ ?_
  · exact (Fin.castLE_injective _).injOn
  · intro i _; simp
  · intro i _ hi
    rw [if_neg]
    intro hlt
    exact hi ⟨⟨i, lt_min hlt i.2⟩, by simp, Fin.ext rfl⟩
  · intro i _
    have : ((keep r k i : Fin k) : ℕ) < r := by
      have h1 := i.2
      have h2 := Nat.min_le_left r k
      simp only [keep, Fin.val_castLE]
      exact lt_of_lt_of_le h1 h2
    rw [if_pos this]
    ring

theorem Aux.sub_decompress {m n k : ℕ} (r : ℕ) {w : Matrix (Fin m) (Fin n) ℝ} {s : Fin k → ℝ}
    {u : Matrix (Fin m) (Fin k) ℝ} {v : Matrix (Fin n) (Fin k) ℝ} (h : IsSvd w s u v) :
    w - svdDecompress (svdCompress r s u v) =
      u * diagonal (fun i : Fin k => if r ≤ (i : ℕ) then s i else 0) * vᵀ := by
  rw [Aux.decompress_eq]
  conv_lhs => rw [h.product]
  rw [← Matrix.sub_mul, ← Matrix.mul_sub, diagonal_sub]
  congr 3
  ext i
  by_cases hi : (i : ℕ) < r
  · simp [hi, not_le.2 hi]
  · simp [hi, not_lt.1 hi]

theorem Aux.zero_of_rank {m n k : ℕ} (r : ℕ) {w : Matrix (Fin m) (Fin n) ℝ} {s : Fin k → ℝ}
    {u : Matrix (Fin m) (Fin k) ℝ} {v : Matrix (Fin n) (Fin k) ℝ} (h : IsSvd w s u v)
    (hr : w.rank ≤ r) (i : Fin k) (hi : r ≤ (i : ℕ)) : s i = 0 := by
  by_contra hne
  have hdiag : diagonal s = uᵀ * w * v := by
    conv_rhs => rw [h.product]
    rw [show uᵀ * (u * diagonal s * vᵀ) * v = (uᵀ * u) * diagonal s * (vᵀ * v) by
      simp only [Matrix.mul_assoc], h.left, h.right, Matrix.one_mul, Matrix.mul_one]
  have h1 : (diagonal s).rank ≤ w.rank := by
    rw [hdiag]
    exact (rank_mul_le_left _ _).trans (rank_mul_le_right _ _)
  rw [Matrix.rank_diagonal] at h1
  have h2 : (i : ℕ) + 1 ≤ Fintype.card {j // s j ≠ 0} := by
    have hpos : ∀ j : Fin k, j ≤ i → s j ≠ 0 := by
      intro j hj
      have := h.sorted hj
      have hi0 := lt_of_le_of_ne (h.nonneg i) (Ne.symm hne)
      exact (hi0.trans_le this).ne'
    have := Fintype.card_le_of_injective
      (fun a : Fin ((i : ℕ) + 1) =>
        (⟨⟨a, by have := a.2; have := i.2; omega⟩,
          hpos _ (by rw [Fin.le_def]; have := a.2; simp only; omega)⟩ : {j // s j ≠ 0}))
      (fun a b hab => by
        have := congrArg (fun x : {j // s j ≠ 0} => ((x.1 : Fin k) : ℕ)) hab
        exact Fin.ext this)
    simpa using this
  omega

/-- Bessel's inequality for a matrix with orthonormal columns. -/
theorem Aux.bessel {n k : ℕ} (q : Matrix (Fin n) (Fin k) ℝ) (hq : qᵀ * q = 1) (x : Fin n → ℝ) :
    ∑ i, (∑ l, q l i * x l) ^ 2 ≤ ∑ l, x l ^ 2 := by
  have key : 0 ≤ (x - q *ᵥ (qᵀ *ᵥ x)) ⬝ᵥ (x - q *ᵥ (qᵀ *ᵥ x)) := by
    exact Finset.sum_nonneg fun _ _ => mul_self_nonneg _
  have e1 : x ⬝ᵥ (q *ᵥ (qᵀ *ᵥ x)) = (qᵀ *ᵥ x) ⬝ᵥ (qᵀ *ᵥ x) := by
    rw [dotProduct_mulVec, ← mulVec_transpose]
  have e2 : (q *ᵥ (qᵀ *ᵥ x)) ⬝ᵥ (q *ᵥ (qᵀ *ᵥ x)) = (qᵀ *ᵥ x) ⬝ᵥ (qᵀ *ᵥ x) := by
    rw [dotProduct_mulVec, ← mulVec_transpose, mulVec_mulVec, hq, one_mulVec]
  rw [sub_dotProduct, dotProduct_sub, dotProduct_sub, e1, e2,
    dotProduct_comm (q *ᵥ (qᵀ *ᵥ x)) x, e1] at key
  have e3 : (qᵀ *ᵥ x) ⬝ᵥ (qᵀ *ᵥ x) = ∑ i, (∑ l, q l i * x l) ^ 2 := by
    simp only [dotProduct, mulVec, transpose_apply]
    exact Finset.sum_congr rfl fun _ _ => by ring
  have e4 : x ⬝ᵥ x = ∑ l, x l ^ 2 := by
    simp only [dotProduct]
    exact Finset.sum_congr rfl fun _ _ => by ring
  rw [e3, e4] at key
  linarith

/-- A matrix of rank `q` is its own projection onto `q` orthonormal directions. -/
theorem Aux.row_basis {m n : ℕ} (b : Matrix (Fin m) (Fin n) ℝ) :
    ∃ q : Matrix (Fin n) (Fin b.rank) ℝ, qᵀ * q = 1 ∧ b * q * qᵀ = b := by
  let e := (WithLp.linearEquiv 2 ℝ (Fin n → ℝ)).symm
  let S : Submodule ℝ (EuclideanSpace ℝ (Fin n)) :=
    (Submodule.span ℝ (Set.range b)).map (e : (Fin n → ℝ) →ₗ[ℝ] EuclideanSpace ℝ (Fin n))
  have hfin : Module.finrank ℝ S = b.rank := by
    rw [rank_eq_finrank_span_row]
    exact LinearEquiv.finrank_map_eq e _
  let B : OrthonormalBasis (Fin b.rank) ℝ S := (stdOrthonormalBasis ℝ S).reindex (finCongr hfin)
  refine ⟨Matrix.of fun l i => (B i : EuclideanSpace ℝ (Fin n)) l, ?_, ?_⟩
  · ext i j
    have := (orthonormal_iff_ite.1 B.orthonormal) i j
    rw [Submodule.coe_inner, PiLp.inner_apply] at this
    simp only [mul_apply, transpose_apply, of_apply, one_apply]
    rw [← this]
    exact Finset.sum_congr rfl fun l _ => by simp [mul_comm]
  · ext a l
    have hmem : e (b a) ∈ S :=
      Submodule.mem_map_of_mem (Submodule.subset_span ⟨a, rfl⟩)
    have h := B.sum_repr' ⟨e (b a), hmem⟩
    have h' := congrArg (fun x : S => (x : EuclideanSpace ℝ (Fin n)) l) h
    simp only [Submodule.coe_sum, Submodule.coe_smul, Submodule.coe_inner] at h'
    have h2 : ∀ x : Fin n, (e (b a)) x = b a x := fun x => rfl
    simp only [mul_apply, transpose_apply, of_apply]
    rw [← h2 l, ← h']
    simp only [PiLp.inner_apply, h2]
    simp [mul_comm]

theorem Aux.project_bound {m n q : ℕ} (w : Matrix (Fin m) (Fin n) ℝ) (c : Matrix (Fin m) (Fin q) ℝ)
    (Q : Matrix (Fin n) (Fin q) ℝ) (hQ : Qᵀ * Q = 1) :
    Spec.squares w - Spec.squares (w * Q) ≤ Spec.squares (w - c * Qᵀ) := by
  have h := Aux.squares_nonneg (w * Q - c)
  rw [Aux.squares_trace] at h ⊢
  rw [Aux.squares_trace, Aux.squares_trace]
  have e1 : trace ((w - c * Qᵀ)ᵀ * (w - c * Qᵀ)) =
      trace (wᵀ * w) - trace (wᵀ * c * Qᵀ) - trace (Q * cᵀ * w) + trace (cᵀ * c) := by
    rw [transpose_sub, Matrix.sub_mul, Matrix.mul_sub, Matrix.mul_sub, transpose_mul,
      transpose_transpose, trace_sub, trace_sub, trace_sub]
    have : trace (Q * cᵀ * (c * Qᵀ)) = trace (cᵀ * c) := by
      rw [Matrix.mul_assoc, trace_mul_comm, ← Matrix.mul_assoc, Matrix.mul_assoc (cᵀ * c), hQ,
        Matrix.mul_one]
    rw [this, Matrix.mul_assoc wᵀ c]
    ring
  have e2 : trace ((w * Q - c)ᵀ * (w * Q - c)) =
      trace ((w * Q)ᵀ * (w * Q)) - trace (wᵀ * c * Qᵀ) - trace (Q * cᵀ * w) + trace (cᵀ * c) := by
    rw [transpose_sub, Matrix.sub_mul, Matrix.mul_sub, Matrix.mul_sub, trace_sub, trace_sub,
      trace_sub]
    have t1 : trace ((w * Q)ᵀ * c) = trace (wᵀ * c * Qᵀ) := by
      rw [transpose_mul, Matrix.mul_assoc, trace_mul_comm]
    have t2 : trace (cᵀ * (w * Q)) = trace (Q * cᵀ * w) := by
      rw [← Matrix.mul_assoc, trace_mul_comm, Matrix.mul_assoc]
    rw [t1, t2]
    ring
  rw [e2] at h
  rw [e1]
  linarith

/-- A weighted sum of decreasing squares with weights in `[0, 1]` of total at most `r` is at most the
sum of the first `r`. -/
theorem Aux.weights_bound {k : ℕ} (r : ℕ) (t a : Fin k → ℝ) (ht : Antitone t) (h0 : ∀ i, 0 ≤ t i)
    (ha0 : ∀ i, 0 ≤ a i) (ha1 : ∀ i, a i ≤ 1) (hsum : ∑ i, a i ≤ r) :
    ∑ i, t i * a i ≤ ∑ i : Fin k, if (i : ℕ) < r then t i else 0 := by
  by_cases hk : k ≤ r
  · refine Finset.sum_le_sum fun i _ => ?_
    rw [if_pos (i.2.trans_le hk)]
    exact mul_le_of_le_one_right (h0 i) (ha1 i)
  · have hr : r < k := not_le.1 hk
    let c := t ⟨r, hr⟩
    have hterm : ∀ i : Fin k, (t i - c) * a i ≤ if (i : ℕ) < r then t i - c else 0 := by
      intro i
      split_ifs with hi
      · have : 0 ≤ t i - c := sub_nonneg.2 (ht (by rw [Fin.le_def]; exact hi.le))
        exact mul_le_of_le_one_right this (ha1 i)
      · have : t i - c ≤ 0 := sub_nonpos.2 (ht (by rw [Fin.le_def]; exact not_lt.1 hi))
        exact mul_nonpos_of_nonpos_of_nonneg this (ha0 i)
    have hs := Finset.sum_le_sum fun i (_ : i ∈ Finset.univ) => hterm i
    have hcount : ∑ i : Fin k, (if (i : ℕ) < r then c else 0) = r * c := by
      rw [← Finset.sum_filter, Finset.sum_const, nsmul_eq_mul]
      congr 2
      have : (Finset.univ.filter fun i : Fin k => (i : ℕ) < r) =
          Finset.Iio ⟨r, hr⟩ := by
        ext i; simp [Fin.lt_def]
      rw [this, Fin.card_Iio]
    have e1 : ∑ i, (t i - c) * a i = ∑ i, t i * a i - c * ∑ i, a i := by
      rw [Finset.mul_sum, ← Finset.sum_sub_distrib]
      exact Finset.sum_congr rfl fun _ _ => by ring
    have e2 : (∑ i : Fin k, if (i : ℕ) < r then t i - c else 0) =
        (∑ i : Fin k, if (i : ℕ) < r then t i else 0) - r * c := by
      rw [← hcount, ← Finset.sum_sub_distrib]
      exact Finset.sum_congr rfl fun i _ => by split_ifs <;> ring
    rw [e1, e2] at hs
    have hc : 0 ≤ c := h0 _
    have := mul_le_mul_of_nonneg_left hsum hc
    linarith

/-! ## C78 -/

/-- **C78 (rank).**  A compressed weight never has a rank above the target, whatever its factors
became during training. -/
theorem C78_rank {m n k : ℕ} (r : ℕ)
    (c : Matrix (Fin m) (Fin (kept r k)) ℝ × Matrix (Fin (kept r k)) (Fin n) ℝ) :
    (svdDecompress c).rank ≤ r :=
  (rank_mul_le_left _ _).trans ((rank_le_width _).trans (Nat.min_le_left _ _))

/-- **C78 (error).**  The squared error of compression is the sum of the squares of the singular
values beyond the target rank. -/
theorem C78_error {m n k : ℕ} (r : ℕ) (w : Matrix (Fin m) (Fin n) ℝ) (s : Fin k → ℝ)
    (u : Matrix (Fin m) (Fin k) ℝ) (v : Matrix (Fin n) (Fin k) ℝ) (h : IsSvd w s u v) :
    Spec.squares (w - svdDecompress (svdCompress r s u v)) =
      ∑ i : Fin k, if r ≤ (i : ℕ) then s i ^ 2 else 0 := by
  rw [Aux.sub_decompress r h, Aux.squares_svd _ _ _ h.left h.right]
  exact Finset.sum_congr rfl fun i _ => by split_ifs <;> simp

/-- **C78 (lossless).**  Nothing is lost exactly when the weight has at most the target rank. -/
theorem C78_lossless {m n k : ℕ} (r : ℕ) (w : Matrix (Fin m) (Fin n) ℝ) (s : Fin k → ℝ)
    (u : Matrix (Fin m) (Fin k) ℝ) (v : Matrix (Fin n) (Fin k) ℝ) (h : IsSvd w s u v) :
    svdDecompress (svdCompress r s u v) = w ↔ w.rank ≤ r := by
  constructor
  · intro e
    rw [← e]
    exact C78_rank r _
  · intro hr
    symm
    rw [← sub_eq_zero, Aux.sub_decompress r h]
    have : (fun i : Fin k => if r ≤ (i : ℕ) then s i else 0) = 0 := by
      ext i
      by_cases hi : r ≤ (i : ℕ)
      · simp [hi, Aux.zero_of_rank r h hr i hi]
      · simp [hi]
    rw [this]
    simp

/-- **C78 (idempotent).**  Compressing a compressed weight again, with any singular value
decomposition of it and at least the same rank, changes nothing. -/
theorem C78_idempotent {m n k : ℕ} (r r' : ℕ) (hr : r ≤ r') (w : Matrix (Fin m) (Fin n) ℝ)
    (s s' : Fin k → ℝ) (u u' : Matrix (Fin m) (Fin k) ℝ) (v v' : Matrix (Fin n) (Fin k) ℝ)
    (_ : IsSvd w s u v) (h' : IsSvd (svdDecompress (svdCompress r s u v)) s' u' v') :
    svdDecompress (svdCompress r' s' u' v') = svdDecompress (svdCompress r s u v) :=
  (C78_lossless r' _ s' u' v' h').2 ((C78_rank r _).trans hr)

/-- **C78 (best approximation).**  No matrix of at most the target rank is closer to the weight than
the compressed weight. -/
theorem C78_best {m n k : ℕ} (r : ℕ) (w : Matrix (Fin m) (Fin n) ℝ) (s : Fin k → ℝ)
    (u : Matrix (Fin m) (Fin k) ℝ) (v : Matrix (Fin n) (Fin k) ℝ) (h : IsSvd w s u v)
    (b : Matrix (Fin m) (Fin n) ℝ) (hb : b.rank ≤ r) :
    Spec.squares (w - svdDecompress (svdCompress r s u v)) ≤ Spec.squares (w - b) := by
  obtain ⟨Q, hQ, hbQ⟩ := Aux.row_basis b
  have h1 := Aux.project_bound w (b * Q) Q hQ
  rw [hbQ] at h1
  have hw : Spec.squares w = ∑ i, s i ^ 2 := by
    conv_lhs => rw [h.product]
    exact Aux.squares_svd _ _ _ h.left h.right
  -- the part of the weight in the directions of `b`
  let a : Fin k → ℝ := fun i => ∑ j, (∑ l, v l i * Q l j) ^ 2
  have hwQ : Spec.squares (w * Q) = ∑ i, s i ^ 2 * a i := by
    have e : w * Q = u * (diagonal s * (vᵀ * Q)) := by
      conv_lhs => rw [h.product]
      simp only [Matrix.mul_assoc]
    have e' : (u * (diagonal s * (vᵀ * Q)))ᵀ * (u * (diagonal s * (vᵀ * Q))) =
        (diagonal s * (vᵀ * Q))ᵀ * (diagonal s * (vᵀ * Q)) := by
      rw [transpose_mul, Matrix.mul_assoc, ← Matrix.mul_assoc uᵀ, h.left, Matrix.one_mul]
    rw [Aux.squares_trace, e, e', ← Aux.squares_trace]
    simp only [Spec.squares, diagonal_mul, mul_pow, a]
    refine Finset.sum_congr rfl fun i _ => ?_
    rw [Finset.mul_sum]
    rfl
  have ha0 : ∀ i, 0 ≤ a i := fun i => Finset.sum_nonneg fun _ _ => sq_nonneg _
  have ha1 : ∀ i, a i ≤ 1 := by
    intro i
    have hb' := Aux.bessel Q hQ fun l => v l i
    have hv : ∑ l, v l i ^ 2 = 1 := by
      have := congrFun (congrFun h.right i) i
      simp only [mul_apply, transpose_apply, one_apply_eq] at this
      rw [← this]
      exact Finset.sum_congr rfl fun _ _ => by ring
    rw [hv] at hb'
    refine le_trans (le_of_eq ?_) hb'
    exact Finset.sum_congr rfl fun j _ => by
      congr 1
      exact Finset.sum_congr rfl fun l _ => by ring
  have hsum : ∑ i, a i ≤ (r : ℝ) := by
    have : ∑ i, a i = ∑ j, ∑ i, (∑ l, v l i * Q l j) ^ 2 := Finset.sum_comm
    rw [this]
    have hcol : ∀ j, ∑ i, (∑ l, v l i * Q l j) ^ 2 ≤ 1 := by
      intro j
      have hb' := Aux.bessel v h.right fun l => Q l j
      have hq : ∑ l, Q l j ^ 2 = 1 := by
        have := congrFun (congrFun hQ j) j
        simp only [mul_apply, transpose_apply, one_apply_eq] at this
        rw [← this]
        exact Finset.sum_congr rfl fun _ _ => by ring
      rwa [hq] at hb'
    calc ∑ j, ∑ i, (∑ l, v l i * Q l j) ^ 2 ≤ ∑ _j : Fin b.rank, (1 : ℝ) :=
          Finset.sum_le_sum fun j _ => hcol j
      _ = b.rank := by simp
      _ ≤ r := by exact_mod_cast hb
  have hbound := Aux.weights_bound r (fun i => s i ^ 2) a
    (fun i j hij => pow_le_pow_left₀ (h.nonneg j) (h.sorted hij) 2)
    (fun i => sq_nonneg _) ha0 ha1 hsum
  rw [C78_error r w s u v h]
  rw [hw, hwQ] at h1
  have hsplit : (∑ i : Fin k, if r ≤ (i : ℕ) then s i ^ 2 else 0) =
      ∑ i, s i ^ 2 - ∑ i : Fin k, if (i : ℕ) < r then s i ^ 2 else 0 := by
    rw [← Finset.sum_sub_distrib]
    refine Finset.sum_congr rfl fun i _ => ?_
    by_cases hi : (i : ℕ) < r
    · simp [hi, not_le.2 hi]
    · simp [hi, not_lt.1 hi]
  rw [hsplit]
  linarith

/-- **C78 (periodic algorithm).**  At an update step the weight variable is replaced by a matrix
whose rank is at most the scheduled rank and that is closest to the weight among all of them. -/
theorem C78_periodic {m n : ℕ} (svd : Svd m n)
    (hsvd : ∀ w, IsSvd w (svd.s w) (svd.u w) (svd.v w)) (rank freq warmup : ℕ) (st : Periodic m n)
    (hstep : freq ∣ st.step) :
    let w' := (project svd rank freq warmup st).2.w
    w'.rank ≤ scheduledRank (min m n) rank warmup st.step ∧
    ∀ b : Matrix (Fin m) (Fin n) ℝ, b.rank ≤ scheduledRank (min m n) rank warmup st.step →
      Spec.squares (st.w - w') ≤ Spec.squares (st.w - b) := by
  have h0 : st.step % freq = 0 := Nat.mod_eq_zero_of_dvd hstep
  simp only [project, h0, if_true]
  exact ⟨C78_rank _ _, fun b hb => C78_best _ _ _ _ _ (hsvd st.w) b hb⟩

/-- **C78 (first update).**  With a warm-up, the update at step 0 leaves the weight as it is. -/
theorem C78_first_update {m n : ℕ} (svd : Svd m n)
    (hsvd : ∀ w, IsSvd w (svd.s w) (svd.u w) (svd.v w)) (rank freq warmup : ℕ) (hw : 0 < warmup)
    (w : Matrix (Fin m) (Fin n) ℝ) : (project svd rank freq warmup ⟨w, 0⟩).2.w = w := by
  simp only [project, Nat.zero_mod, if_true]
  rw [C63_first _ _ _ hw]
  refine (C78_lossless _ _ _ _ _ (hsvd w)).2 ?_
  exact le_min (rank_le_height w) (rank_le_width w)

/-- A rank-2 matrix with its singular value decomposition: the hypotheses of C78 are met, and
compressing to rank 1 loses something. -/
theorem Example.svd :
    IsSvd !![(0 : ℝ), 3; 2, 0] ![3, 2] !![(1 : ℝ), 0; 0, 1] !![(0 : ℝ), 1; 1, 0] ∧
    svdDecompress (svdCompress 1 ![3, 2] !![(1 : ℝ), 0; 0, 1] !![(0 : ℝ), 1; 1, 0]) =
      !![(0 : ℝ), 3; 0, 0] := by
  refine ⟨⟨?_, ?_, ?_, ?_, ?_⟩, ?_⟩
  · ext i j
    fin_cases i <;> fin_cases j <;>
      simp [Matrix.mul_apply, Fin.sum_univ_two, Matrix.diagonal_apply, Matrix.vecMul, dotProduct]
  · ext i j; fin_cases i <;> fin_cases j <;> simp [Matrix.mul_apply, Fin.sum_univ_two]
  · ext i j; fin_cases i <;> fin_cases j <;> simp [Matrix.mul_apply, Fin.sum_univ_two]
  · intro i j hij
    fin_cases i <;> fin_cases j <;> simp_all <;> norm_num
  · intro i; fin_cases i <;> norm_num
  · rw [Aux.decompress_eq]
    ext i j
    fin_cases i <;> fin_cases j <;>
      simp [Matrix.mul_apply, Fin.sum_univ_two, Matrix.diagonal_apply, Matrix.vecMul, dotProduct]

end Verif.Props
