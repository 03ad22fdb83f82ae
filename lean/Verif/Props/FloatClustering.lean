import Verif.Floats.Clustering
import Verif.Props.FloatRounding
import Verif.Props.ClusterWrapper

/-!
# C20, C21, C22 in rounded arithmetic
-/

set_option linter.unusedSectionVars false

namespace Verif.Props
open Verif.Clustering Verif.Floats

variable {ι : Type*} {α : Type*} [Field α] [LinearOrder α] [IsStrictOrderedRing α] [FloorRing α]

namespace Spec

/-- `x` is a floating-point number. -/
def IsFloat (R : Rounding α) (x : α) : Prop := R.rnd x = x

/-- All centroids are floating-point numbers. -/
def FloatCentroids (R : Rounding α) (cents : ℕ → List α) : Prop := ∀ k, ∀ c ∈ cents k, IsFloat R c

end Spec

namespace Aux

theorem rnd_abs (R : Rounding α) (x : α) : |R.rnd x| = R.rnd |x| := by
  rcases le_total 0 x with h | h
  · rw [abs_of_nonneg h, abs_of_nonneg (rnd_nonneg R h)]
  · have h' : 0 ≤ -x := by linarith
    have := rnd_nonneg R h'
    rw [R.neg] at this
    rw [abs_of_nonpos h, abs_of_nonpos (by linarith), R.neg]

theorem pullingIndexF_spec (R : Rounding α) (cs : List α) (hcs : cs ≠ []) (w : α) :
    ∃ hi : pullingIndexF R cs w < cs.length,
      (∀ (j : ℕ) (hj : j < cs.length), R.rnd |w - cs[pullingIndexF R cs w]| ≤ R.rnd |w - cs[j]|) ∧
      ∀ (j : ℕ) (hj : j < pullingIndexF R cs w),
        R.rnd |w - cs[pullingIndexF R cs w]| < R.rnd |w - cs[j]'(by omega)| := by
  obtain ⟨h, hmin, hfirst⟩ := Aux.argmin_spec (cs.map fun c => |R.rnd (w - c)|) (by simpa using hcs)
  refine ⟨by simpa [pullingIndexF] using h, fun j hj => ?_, fun j hj => ?_⟩
  · have := hmin j (by simpa using hj)
    simpa [pullingIndexF, rnd_abs] using this
  · have := hfirst j hj
    simpa [pullingIndexF, rnd_abs] using this

/-- A nonzero number is not rounded to zero. -/
theorem accurate_ne_zero {R : Rounding α} {u : α} (hR : R.Accurate u) (hu : u < 1) {x : α} (h : R.rnd x = 0) :
    x = 0 := by
  have := hR x
  rw [h, zero_sub, abs_neg] at this
  by_contra hx
  have hp : 0 < |x| := abs_pos.2 hx
  have : u * |x| < 1 * |x| := mul_lt_mul_of_pos_right hu hp
  linarith

theorem sgn_shift (R : Rounding α) {w : α} (hw : -999999 ≤ w) : sgn (R.rnd (w + 1000000)) = 1 := by
  apply sgn_pos
  have h1 : R.rnd 1 ≤ R.rnd (w + 1000000) := R.mono (by linarith)
  rw [rnd_one] at h1
  linarith

end Aux

/-- **C20** in rounded arithmetic (indices).  Every pulling index is the lowest index of a centroid whose rounded
distance from the weight is minimal.  So a centroid that is strictly nearer than the chosen one, if there is any,
has a distance that rounds to the same number. -/
theorem C20_float_nearest (R : Rounding α) (cs : List α) (hcs : cs ≠ []) (w : α) :
    ∃ hi : pullingIndexF R cs w < cs.length,
      (∀ (j : ℕ) (hj : j < cs.length), R.rnd |w - cs[pullingIndexF R cs w]| ≤ R.rnd |w - cs[j]|) ∧
      (∀ (j : ℕ) (hj : j < pullingIndexF R cs w),
        R.rnd |w - cs[pullingIndexF R cs w]| < R.rnd |w - cs[j]'(by omega)|) ∧
      ∀ c ∈ cs, |w - c| < |w - cs[pullingIndexF R cs w]| →
        R.rnd |w - c| = R.rnd |w - cs[pullingIndexF R cs w]| := by
  obtain ⟨hi, h1, h2⟩ := Aux.pullingIndexF_spec R cs hcs w
  refine ⟨hi, h1, h2, fun c hc hlt => ?_⟩
  obtain ⟨j, hj, rfl⟩ := List.mem_iff_getElem.1 hc
  exact le_antisymm (R.mono hlt.le) (h1 j hj)

/-- **C20** in rounded arithmetic (values).  The clustered weight is exactly a centroid, and its distance from the weight
is minimal up to the relative error of two roundings. -/
theorem C20_float_value (R : Rounding α) (u : α) (hR : R.Accurate u) (cs : List α) (hcs : cs ≠ [])
    (hfl : ∀ c ∈ cs, Spec.IsFloat R c) (w : α) (hw : -999999 ≤ w) :
    clusteredEntryF R cs (pullingIndexF R cs w) w ∈ cs ∧
      ∀ c ∈ cs, |w - clusteredEntryF R cs (pullingIndexF R cs w) w| * (1 - u) ≤ |w - c| * (1 + u) := by
  obtain ⟨hi, h1, -⟩ := Aux.pullingIndexF_spec R cs hcs w
  have hv : clusteredEntryF R cs (pullingIndexF R cs w) w = cs[pullingIndexF R cs w] := by
    unfold clusteredEntryF
    rw [Aux.sgn_shift R hw, mul_one, List.getD_eq_getElem _ _ hi]
    exact hfl _ (List.getElem_mem hi)
  rw [hv]
  refine ⟨List.getElem_mem hi, fun c hc => ?_⟩
  obtain ⟨j, hj, rfl⟩ := List.mem_iff_getElem.1 hc
  have h := h1 j hj
  have a1 := abs_le.1 (hR |w - cs[pullingIndexF R cs w]|)
  have a2 := abs_le.1 (hR |w - cs[j]|)
  rw [abs_abs] at a1 a2
  have e1 : |w - cs[pullingIndexF R cs w]| * (1 - u) =
      |w - cs[pullingIndexF R cs w]| - u * |w - cs[pullingIndexF R cs w]| := by ring
  have e2 : |w - cs[j]| * (1 + u) = |w - cs[j]| + u * |w - cs[j]| := by ring
  rw [e1, e2]
  linarith [a1.1, a2.2]

/-- **C20** in rounded arithmetic (fixed points).  A weight that equals a centroid is mapped to itself, exactly. -/
theorem C20_float_fixed (R : Rounding α) (u : α) (hR : R.Accurate u) (hu : u < 1) (cs : List α)
    (hfl : ∀ c ∈ cs, Spec.IsFloat R c) (w : α) (hw : -999999 ≤ w) (hmem : w ∈ cs) :
    clusteredEntryF R cs (pullingIndexF R cs w) w = w := by
  obtain ⟨hi, h1, -⟩ := Aux.pullingIndexF_spec R cs (List.ne_nil_of_mem hmem) w
  have hv : clusteredEntryF R cs (pullingIndexF R cs w) w = cs[pullingIndexF R cs w] := by
    unfold clusteredEntryF
    rw [Aux.sgn_shift R hw, mul_one, List.getD_eq_getElem _ _ hi]
    exact hfl _ (List.getElem_mem hi)
  rw [hv]
  obtain ⟨j, hj, hjw⟩ := List.mem_iff_getElem.1 hmem
  have h := h1 j hj
  rw [hjw, sub_self, abs_zero, Aux.rnd_zero] at h
  have h0 : R.rnd |w - cs[pullingIndexF R cs w]| = 0 := le_antisymm h (Aux.rnd_nonneg R (abs_nonneg _))
  have := abs_eq_zero.1 (Aux.accurate_ne_zero hR hu h0)
  linarith

namespace Aux

/-- A zero weight next to a zero centroid is clustered to zero, for every rounding. -/
theorem entryF_zero (R : Rounding α) {cs : List α} (hfl : ∀ c ∈ cs, Spec.IsFloat R c) (h0 : (0 : α) ∈ cs) :
    clusteredEntryF R cs (pullingIndexF R cs 0) 0 = 0 := by
  obtain ⟨hi, h1, -⟩ := pullingIndexF_spec R cs (List.ne_nil_of_mem h0) 0
  have hf : R.rnd cs[pullingIndexF R cs 0] = cs[pullingIndexF R cs 0] := hfl _ (List.getElem_mem hi)
  obtain ⟨j, hj, hjw⟩ := List.mem_iff_getElem.1 h0
  have h := h1 j hj
  rw [hjw, zero_sub, sub_self, abs_zero, rnd_zero, abs_neg, ← rnd_abs, hf] at h
  have : cs[pullingIndexF R cs 0] = 0 := abs_nonpos_iff.1 h
  unfold clusteredEntryF
  rw [List.getD_eq_getElem _ _ hi, this, zero_mul, rnd_zero]

theorem resetZeroF_eq (R : Rounding α) {cs : List α} (hfl : ∀ c ∈ cs, Spec.IsFloat R c) (z : ℕ) :
    resetZeroF R cs z = resetZero cs z := by
  unfold resetZeroF resetZero
  refine List.map_congr_left fun c hc => ?_
  split
  · rw [mul_one]; exact hfl c hc
  · rw [mul_zero, rnd_zero]

theorem resetZero_float (R : Rounding α) {cs : List α} (hfl : ∀ c ∈ cs, Spec.IsFloat R c) (z : ℕ) :
    ∀ c ∈ resetZero cs z, Spec.IsFloat R c := by
  intro c hc
  unfold resetZero at hc
  obtain ⟨x, hx, rfl⟩ := List.mem_map.1 hc
  split
  · rw [mul_one]; exact hfl x hx
  · rw [mul_zero]; exact rnd_zero R

/-- What never changes in a history. -/
theorem cRunF_inv (R : Rounding α) (ps : Bool) (ch : ι → ℕ) (w0 : ι → α) (c0 : ℕ → List α)
    (hfl : Spec.FloatCentroids R c0) (es : List (CEvent ι α)) :
    let s := cRunF R ps ch w0 c0 es
    s.mask = (cBuildF R ch w0 c0).mask ∧ s.zeroIdx = (cBuildF R ch w0 c0).zeroIdx ∧
      (∀ c, (s.cents c).length = (c0 c).length) ∧ Spec.FloatCentroids R s.cents := by
  have key : ∀ (es : List (CEvent ι α)) (s0 : CState ι α), Spec.FloatCentroids R s0.cents →
      (es.foldl (cStepF R ps ch) s0).mask = s0.mask ∧
      (es.foldl (cStepF R ps ch) s0).zeroIdx = s0.zeroIdx ∧
      (∀ c, ((es.foldl (cStepF R ps ch) s0).cents c).length = (s0.cents c).length) ∧
      Spec.FloatCentroids R (es.foldl (cStepF R ps ch) s0).cents := by
    intro es
    induction es with
    | nil => intro s0 hs; exact ⟨rfl, rfl, fun _ => rfl, hs⟩
    | cons e es ih =>
      intro s0 hs
      have hcall : Spec.FloatCentroids R (cStepF R ps ch s0 e).cents ∧
          ∀ c, ((cStepF R ps ch s0 e).cents c).length = (s0.cents c).length := by
        cases e with
        | call =>
          cases ps with
          | false => exact ⟨hs, fun _ => rfl⟩
          | true =>
            simp only [cStepF, cUpdateF, if_true]
            refine ⟨fun k => ?_, fun c => ?_⟩
            · dsimp only
              rw [resetZeroF_eq R (hs k)]
              exact resetZero_float R (hs k) _
            · rw [resetZeroF_eq R (hs c), resetZero_length]
        | assign o c =>
          refine ⟨fun k x hx => ?_, fun k => by simp [cStepF]⟩
          simp only [cStepF] at hx
          obtain ⟨i, -, rfl⟩ := List.mem_map.1 hx
          exact R.idem _
      obtain ⟨h1, h2, h3, h4⟩ := ih _ hcall.1
      rw [List.foldl_cons]
      refine ⟨h1.trans ?_, h2.trans ?_, fun c => (h3 c).trans (hcall.2 c), h4⟩ <;> cases e <;> rfl
  exact key es (cBuildF R ch w0 c0) hfl

theorem cRunF_snoc (R : Rounding α) (ps : Bool) (ch : ι → ℕ) (w0 : ι → α) (c0 : ℕ → List α)
    (es : List (CEvent ι α)) : cRunF R ps ch w0 c0 (es ++ [.call]) =
      cUpdateF R ps ch (cRunF R ps ch w0 c0 es) := by
  simp [cRunF, cStepF]

end Aux

/-- **C21** in rounded arithmetic, for every rounding.  In every forward pass, after any history of optimizer steps and
forward passes, every entry of the kernel is exactly a current centroid of its channel, and the kernel takes at most
`number_of_clusters` values (per channel).  Partial: for original weights from -999999 on. -/
theorem C21_float_partial (R : Rounding α) (ps : Bool) (ch : ι → ℕ) (w0 : ι → α) (c0 : ℕ → List α) (n : ℕ)
    (hfl : Spec.FloatCentroids R c0) (hc0 : ∀ c, c0 c ≠ [] ∧ (c0 c).length ≤ n) (es : List (CEvent ι α)) :
    let s := cRunF R ps ch w0 c0 (es ++ [.call])
    (∀ p, -999999 ≤ s.orig p → s.kernel p ∈ s.cents (ch p)) ∧
    ∀ c, Spec.AtMost n (fun p => ch p = c ∧ -999999 ≤ s.orig p) s.kernel := by
  obtain ⟨hmask, -, hlen, hfloat⟩ := Aux.cRunF_inv R ps ch w0 c0 hfl es
  obtain ⟨-, -, hlen', hfloat'⟩ := Aux.cRunF_inv R ps ch w0 c0 hfl (es ++ [.call])
  have hmem : ∀ p, -999999 ≤ (cRunF R ps ch w0 c0 (es ++ [.call])).orig p →
      (cRunF R ps ch w0 c0 (es ++ [.call])).kernel p ∈
        (cRunF R ps ch w0 c0 (es ++ [.call])).cents (ch p) := by
    intro p hp
    have hne : (cRunF R ps ch w0 c0 (es ++ [.call])).cents (ch p) ≠ [] := by
      intro h
      have := hlen' (ch p)
      rw [h] at this
      exact (hc0 (ch p)).1 (List.length_eq_zero_iff.1 this.symm)
    have hfl' := hfloat' (ch p)
    rw [Aux.cRunF_snoc] at hp hne hfl' ⊢
    generalize hs : cRunF R ps ch w0 c0 es = s at *
    have entry : ∀ (cs : List α) (w : α), cs ≠ [] → (∀ c ∈ cs, Spec.IsFloat R c) → -999999 ≤ w →
        clusteredEntryF R cs (pullingIndexF R cs w) w ∈ cs := by
      intro cs w h1 h2 h3
      obtain ⟨hi, -, -⟩ := Aux.pullingIndexF_spec R cs h1 w
      unfold clusteredEntryF
      rw [Aux.sgn_shift R h3, mul_one, List.getD_eq_getElem _ _ hi, h2 _ (List.getElem_mem hi)]
      exact List.getElem_mem hi
    refine entry _ _ hne hfl' ?_
    change -999999 ≤ s.orig p at hp
    cases ps with
    | false => exact hp
    | true =>
      change -999999 ≤ R.rnd (s.orig p * s.mask p)
      have hm : s.mask p = 1 ∨ s.mask p = 0 := by
        rw [hmask]
        simp only [cBuildF]
        split
        · exact Or.inl rfl
        · exact Or.inr rfl
      have hlow : R.rnd (-999999) = -999999 := by
        rw [R.neg]
        have := R.nat 999999 (by norm_num)
        norm_num at this
        rw [this]
      rcases hm with hm | hm
      · rw [hm, mul_one, ← hlow]
        exact R.mono hp
      · rw [hm, mul_zero, Aux.rnd_zero]
        norm_num
  refine ⟨hmem, fun c => ?_⟩
  refine ⟨((cRunF R ps ch w0 c0 (es ++ [.call])).cents c).toFinset,
    (List.toFinset_card_le _).trans ((hlen' c).le.trans (hc0 c).2), ?_⟩
  rintro p ⟨rfl, hp⟩
  exact List.mem_toFinset.2 (hmem p hp)

/-- **C22** in rounded arithmetic, for every rounding.  With `preserve_sparsity` and a centroid 0 to begin with, a weight
that is zero when the wrapper is built is exactly zero in the kernel of every forward pass, after any history. -/
theorem C22_float (R : Rounding α) (ch : ι → ℕ) (w0 : ι → α) (c0 : ℕ → List α)
    (hfl : Spec.FloatCentroids R c0) (p : ι) (h0 : (0 : α) ∈ c0 (ch p)) (hw : w0 p = 0) (es : List (CEvent ι α)) :
    (cRunF R true ch w0 c0 (es ++ [.call])).kernel p = 0 := by
  obtain ⟨hmask, hz, hlen, hfloat⟩ := Aux.cRunF_inv R true ch w0 c0 hfl es
  have hm : (cRunF R true ch w0 c0 es).mask p = 0 := by
    rw [hmask]
    simp only [cBuildF]
    rw [if_neg]
    rw [not_not, hw]
    exact Aux.entryF_zero R (hfl _) h0
  have hlt : (cRunF R true ch w0 c0 es).zeroIdx (ch p) < ((cRunF R true ch w0 c0 es).cents (ch p)).length := by
    rw [hz, hlen]
    obtain ⟨h, -⟩ := Aux.argmin_spec ((c0 (ch p)).map fun x => |x|)
      (by simpa using List.ne_nil_of_mem h0)
    simpa [cBuildF] using h
  rw [Aux.cRunF_snoc]
  simp only [cUpdateF, if_true]
  rw [hm, mul_zero, Aux.rnd_zero, Aux.resetZeroF_eq R (hfloat _)]
  exact Aux.entryF_zero R (Aux.resetZero_float R (hfloat _) _)
    (List.mem_of_getElem? (Aux.resetZero_get _ _ hlt))

/-- With exact arithmetic the rounded model is the exact one. -/
theorem C21_float_exact_model (ps : Bool) (ch : ι → ℕ) (w0 : ι → α) (c0 : ℕ → List α) (es : List (CEvent ι α)) :
    cRunF (⟨id, monotone_id, fun _ => rfl, fun _ => rfl, fun _ _ => rfl⟩ : Rounding α) ps ch w0 c0 es =
      CState.run ps ch w0 c0 es := by
  unfold cRunF CState.run
  congr 1

/-- **C20** in `binary32`: which of two centroids is nearer can be rounded away.  The weight 1 is given to the centroid
-2^-26 although 2^-26 is nearer: both distances round to 1. -/
theorem C20_float_ties :
    (∀ x ∈ ([1, -1 / 2 ^ 26, 1 / 2 ^ 26] : List ℚ), binary 24 x = x) ∧
    pullingIndexF (Example.ieee (α := ℚ) 24 le_rfl) [-1 / 2 ^ 26, 1 / 2 ^ 26] 1 = 0 ∧
    |(1 : ℚ) - 1 / 2 ^ 26| < |(1 : ℚ) - -1 / 2 ^ 26| := by
  refine ⟨by decide +kernel, by decide +kernel, ?_⟩
  norm_num [abs_of_pos]

/-- Non-vacuity: a run in `binary32` with two channels, one optimizer step with a number that is rounded, and
`preserve_sparsity`; the third weight stays zero. -/
example : (∀ x ∈ ([0, 1 / 2, -1, 3] : List ℚ), binary 24 x = x) ∧
    let s := cRunF (Example.ieee (α := ℚ) 24 le_rfl) true (fun p : Fin 3 => p.val % 2)
        (fun p => [(3 / 4 : ℚ), 5, 0].getD p.val 0) (fun c => if c = 0 then [0, 1 / 2, -1] else [0, 3])
        ([.call, .assign (fun p => [(3 / 10 : ℚ), 5000000, 7].getD p.val 0)
          (fun c i => if c = 0 then [(1 / 100 : ℚ), 1 / 3, -1].getD i 0 else [(0 : ℚ), 16777217 / 2].getD i 0), .call]);
      (List.finRange 3).map s.kernel = [11184811 / 33554432, 8388608, 0] := by
  refine ⟨by decide +kernel, ?_⟩
  decide +kernel

end Verif.Props
