import Verif.Sparsity.MByN
import Verif.Props.Block

/-!
# Properties C08, C09: m-by-n sparsity
-/

set_option linter.unusedSectionVars false
namespace Verif.Props
open Verif Verif.Sparsity

variable {α : Type*} [Field α] [LinearOrder α] [IsStrictOrderedRing α] [FloorRing α]

/-! ## Specification -/

/-- Columns `g*n, ..., g*n+n-1` that exist in a matrix with `cols` columns. -/
def Spec.group (cols n g : ℕ) : Finset ℕ := (Finset.range cols).filter fun c => c / n = g

/-- A multi-index inside a shape. -/
def Spec.InShape : List ℕ → List ℕ → Prop
  | [], [] => True
  | i :: is, n :: ns => i < n ∧ Spec.InShape is ns
  | _, _ => False

/-- Where the entry at a multi-index goes in the 2-D (TFLite) layout: for a dense kernel
`[c_in, c_out]` to row `c_out`, column `c_in`; for a convolution kernel `[h, w, c_in, c_out]` to
the row-major position of `(c_out, h, w)`, column `c_in`. -/
def Spec.layoutPos (shape ix : List ℕ) : Option (ℕ × ℕ) :=
  match shape, ix with
  | [_, _], [a, b] => some (b, a)
  | [h, w, _, _], [a, b, c, d] => some ((d * h + a) * w + b, c)
  | _, _ => none

/-! ## helper lemmas -/

theorem Aux.take_countP_sorted {β : Type*} (q : β → Bool) (l : List β) (k : ℕ)
    (hs : l.Pairwise fun a b => q a = false → q b = false) :
    (l.take k).countP q = min (l.countP q) k := by
  induction l generalizing k with
  | nil => simp
  | cons a l ih =>
    rw [List.pairwise_cons] at hs
    cases k with
    | zero => simp
    | succ k =>
      rw [List.take_succ_cons, List.countP_cons, List.countP_cons, ih k hs.2]
      cases hq : q a with
      | true => simp
      | false =>
        have : l.countP q = 0 := by
          rw [List.countP_eq_zero]
          intro b hb
          simpa using hs.1 b hb hq
        simp [this]

theorem Aux.paddedWidth_spec (c n : ℕ) (hn : 1 ≤ n) :
    ∃ q, paddedWidth c n = q * n ∧ c < q * n := by
  refine ⟨c / n + 1, ?_, ?_⟩
  · unfold paddedWidth
    have h1 := Nat.div_add_mod c n
    have h2 := Nat.mod_lt c hn
    have h3 : (c / n + 1) * n = n * (c / n) + n := by ring
    omega
  · have h1 := Nat.div_add_mod c n
    have h2 := Nat.mod_lt c hn
    have h3 : (c / n + 1) * n = n * (c / n) + n := by ring
    omega

/-- Blocks do not straddle rows. -/
theorem Aux.mByNBlock_eq (w : Mat α) (n r g : ℕ) (hn : 1 ≤ n) (hg : g * n < w.cols) :
    ∀ q, paddedWidth w.cols n = q * n →
    mByNBlock w n (r * q + g) = (List.range n).map fun o =>
      if g * n + o < w.cols then |w.at_ r (g * n + o)| else 0 := by
  intro q hq
  unfold mByNBlock
  dsimp only
  apply List.map_congr_left
  intro o ho
  rw [List.mem_range] at ho
  have hcq : w.cols < q * n := by
    rw [← hq]; unfold paddedWidth
    have := Nat.mod_lt w.cols hn; omega
  have hgq : g + 1 ≤ q := by
    by_contra h
    have : q ≤ g := by omega
    have := Nat.mul_le_mul_right n this
    omega
  have hlt : g * n + o < q * n := by
    have := Nat.mul_le_mul_right n hgq
    have e : (g + 1) * n = g * n + n := by ring
    omega
  have e : (r * q + g) * n + o = q * n * r + (g * n + o) := by ring
  rw [hq, e, Nat.mul_add_mod, Nat.mod_eq_of_lt hlt, Nat.mul_add_div (by omega),
    Nat.div_eq_of_lt hlt, Nat.add_zero]

theorem Aux.generate_at (w : Mat α) (m n : ℕ) (hmn : m < n) :
    ∃ M, generateMByNMask w m n = .ok M ∧ M.rows = w.rows ∧ M.cols = w.cols ∧
      ∀ r g o, o < n → g * n + o < w.cols →
        M.at_ r (g * n + o) =
          if o ∈ (topKIndices ((List.range n).map fun o =>
            if g * n + o < w.cols then |w.at_ r (g * n + o)| else 0)).take (n - m) then 1 else 0 := by
  unfold generateMByNMask
  rw [if_pos hmn]
  refine ⟨_, rfl, rfl, rfl, ?_⟩
  intro r g o ho hlt
  dsimp only
  obtain ⟨q, hq, -⟩ := Aux.paddedWidth_spec w.cols n (by omega)
  have e : r * paddedWidth w.cols n + (g * n + o) = n * (r * q + g) + o := by rw [hq]; ring
  rw [e, Nat.mul_add_mod, Nat.mod_eq_of_lt ho, Nat.mul_add_div (by omega), Nat.div_eq_of_lt ho,
    Nat.add_zero, Aux.mByNBlock_eq w n r g (by omega) (by omega) q hq]

theorem Aux.topK_nodup (v : List α) : (topKIndices v).Nodup :=
  (Aux.topK_perm v).nodup_iff.2 List.nodup_range

/-- Among the selected positions of a zero-padded block, `min L k` are real. -/
theorem Aux.selected_real (f : ℕ → α) (hf : ∀ o, 0 ≤ f o) (n L k : ℕ) (hL : L ≤ n) :
    ((topKIndices ((List.range n).map fun o => if o < L then f o else 0)).take k).countP
      (fun o => decide (o < L)) = min L k := by
  set v := (List.range n).map fun o => if o < L then f o else 0 with hv
  have hvl : v.length = n := by simp [hv]
  have hget : ∀ o, o < n → v.getD o 0 = if o < L then f o else 0 := by
    intro o ho
    simp [hv, List.getD_eq_getElem?_getD, List.getElem?_range ho]
  rw [Aux.take_countP_sorted]
  · congr 1
    rw [(Aux.topK_perm v).countP_eq, hvl, Aux.countP_range_card]
    simp only [decide_eq_true_eq]
    have : ((Finset.range n).filter fun x => x < L) = Finset.range L := by
      ext x; simp; omega
    rw [this, Finset.card_range]
  · have hs := Aux.topK_sorted v
    refine List.Pairwise.imp_of_mem ?_ hs
    intro a b ha hb hab h1
    have ha' : a < n := by
      have := (Aux.topK_perm v).mem_iff.1 ha
      rwa [List.mem_range, hvl] at this
    have hb' : b < n := by
      have := (Aux.topK_perm v).mem_iff.1 hb
      rwa [List.mem_range, hvl] at this
    simp only [decide_eq_false_iff_not, not_lt] at h1 ⊢
    by_contra hbl
    rw [not_le] at hbl
    unfold topKBefore at hab
    rw [hget a ha', hget b hb', if_pos hbl, if_neg (not_lt.2 h1)] at hab
    rcases hab with h | ⟨-, h⟩
    · exact absurd h (not_lt.2 (hf b))
    · omega

theorem Aux.count_mem_take (l : List ℕ) (hl : l.Nodup) (k L : ℕ) :
    ((Finset.range L).filter fun o => o ∈ l.take k).card =
      (l.take k).countP (fun o => decide (o < L)) := by
  have hnd : (l.take k).Nodup := hl.sublist (List.take_sublist _ _)
  rw [List.countP_eq_length_filter, ← List.toFinset_card_of_nodup (hnd.filter _)]
  congr 1
  ext x
  simp only [Finset.mem_filter, Finset.mem_range, List.mem_toFinset, List.mem_filter,
    decide_eq_true_eq]
  tauto

theorem Aux.group_card (cols n g : ℕ) (hn : 1 ≤ n) :
    (Spec.group cols n g).card = min n (cols - g * n) := by
  have : Spec.group cols n g = (Finset.range (min n (cols - g * n))).image (fun o => g * n + o) := by
    ext c
    simp only [Spec.group, Finset.mem_filter, Finset.mem_range, Finset.mem_image]
    rw [Nat.div_eq_iff (by omega)]
    constructor
    · rintro ⟨h1, h2, h3⟩
      exact ⟨c - g * n, by omega, by omega⟩
    · rintro ⟨o, ho, rfl⟩
      omega
  rw [this, Finset.card_image_of_injective, Finset.card_range]
  intro a b h; simpa using h

theorem Aux.group_image (cols n g : ℕ) (hn : 1 ≤ n) :
    Spec.group cols n g = (Finset.range (min n (cols - g * n))).image (fun o => g * n + o) := by
  ext c
  simp only [Spec.group, Finset.mem_filter, Finset.mem_range, Finset.mem_image]
  rw [Nat.div_eq_iff (by omega)]
  constructor
  · rintro ⟨h1, h2, h3⟩
    exact ⟨c - g * n, by omega, by omega⟩
  · rintro ⟨o, ho, rfl⟩
    omega

theorem Aux.padded_congr (w : Mat α) (n r g : ℕ) :
    ((List.range n).map fun o => if g * n + o < w.cols then |w.at_ r (g * n + o)| else 0) =
    (List.range n).map fun o => if o < min n (w.cols - g * n) then |w.at_ r (g * n + o)| else 0 := by
  apply List.map_congr_left
  intro o ho
  rw [List.mem_range] at ho
  by_cases h : g * n + o < w.cols
  · rw [if_pos h, if_pos (by omega)]
  · rw [if_neg h, if_neg (by omega)]

/-! ## C08 -/

/-- **C08.** For every matrix (in the 2-D layout) and `m < n` the mask exists, is 0/1, keeps exactly
`n-m` entries of every full group of `n` consecutive columns (of a ragged last group of `L` columns
it keeps `min L (n-m)`), and no dropped entry is larger in magnitude than a kept one of the same
group. -/
theorem C08_mask (w : Mat α) (m n : ℕ) (hmn : m < n) :
    ∃ M, generateMByNMask w m n = .ok M ∧ M.rows = w.rows ∧ M.cols = w.cols ∧
      (∀ r c, c < w.cols → M.at_ r c = 0 ∨ M.at_ r c = 1) ∧
      (∀ r g, g * n < w.cols →
        ((Spec.group w.cols n g).filter fun c => M.at_ r c = 1).card =
          min (Spec.group w.cols n g).card (n - m)) ∧
      (∀ r g, g * n + n ≤ w.cols →
        ((Spec.group w.cols n g).filter fun c => M.at_ r c = 1).card = n - m) ∧
      (∀ r g, ∀ c ∈ Spec.group w.cols n g, ∀ c' ∈ Spec.group w.cols n g,
        M.at_ r c = 0 → M.at_ r c' = 1 → |w.at_ r c| ≤ |w.at_ r c'|) := by
  have hn : 1 ≤ n := by omega
  obtain ⟨M, hM, h1, h2, h3⟩ := Aux.generate_at w m n hmn
  have split : ∀ c, c / n * n + c % n = c := fun c => Nat.div_add_mod' c n
  have key : ∀ r g, g * n < w.cols →
        ((Spec.group w.cols n g).filter fun c => M.at_ r c = 1).card =
          min (min n (w.cols - g * n)) (n - m) := by
    intro r g hg
    rw [Aux.group_image _ _ _ hn, Finset.filter_image, Finset.card_image_of_injective _
      (fun a b h => by simpa using h)]
    have : ((Finset.range (min n (w.cols - g * n))).filter fun o => M.at_ r (g * n + o) = 1) =
      (Finset.range (min n (w.cols - g * n))).filter fun o =>
        o ∈ (topKIndices ((List.range n).map fun o =>
            if o < min n (w.cols - g * n) then |w.at_ r (g * n + o)| else 0)).take (n - m) := by
      apply Finset.filter_congr
      intro o ho
      rw [Finset.mem_range] at ho
      rw [h3 r g o (by omega) (by omega), Aux.padded_congr]
      split_ifs with hh
      · exact ⟨fun _ => hh, fun _ => rfl⟩
      · exact ⟨fun h => absurd h zero_ne_one, fun h => absurd h hh⟩
    rw [this, Aux.count_mem_take _ (Aux.topK_nodup _)]
    exact Aux.selected_real (fun o => |w.at_ r (g * n + o)|) (fun _ => abs_nonneg _) n _ _
        (by omega)
  refine ⟨M, hM, h1, h2, ?_, ?_, ?_, ?_⟩
  · intro r c hc
    have := h3 r (c / n) (c % n) (Nat.mod_lt _ hn) (by rw [split]; exact hc)
    rw [split] at this
    rw [this]; split_ifs <;> simp
  · intro r g hg
    rw [key r g hg, Aux.group_card _ _ _ hn]
  · intro r g hg
    rw [key r g (by omega)]; omega
  · intro r g c hc c' hc' z o
    simp only [Spec.group, Finset.mem_filter, Finset.mem_range] at hc hc'
    have e1 := h3 r g (c % n) (Nat.mod_lt _ hn) (by rw [← hc.2, split]; exact hc.1)
    have e2 := h3 r g (c' % n) (Nat.mod_lt _ hn) (by rw [← hc'.2, split]; exact hc'.1)
    have s1 : g * n + c % n = c := by rw [← hc.2, split]
    have s2 : g * n + c' % n = c' := by rw [← hc'.2, split]
    rw [s1] at e1
    rw [s2] at e2
    rw [z] at e1
    rw [o] at e2
    set v := (List.range n).map fun o =>
      if g * n + o < w.cols then |w.at_ r (g * n + o)| else 0 with hv
    have i1 : c % n ∉ (topKIndices v).take (n - m) := by
      intro hh; rw [if_pos hh] at e1; exact zero_ne_one e1
    have i2 : c' % n ∈ (topKIndices v).take (n - m) := by
      by_contra hh; rw [if_neg hh] at e2; exact one_ne_zero e2
    have g1 : v.getD (c % n) 0 = |w.at_ r c| := by
      simp [hv, List.getD_eq_getElem?_getD, List.getElem?_range (Nat.mod_lt c hn), s1, hc.1]
    have g2 : v.getD (c' % n) 0 = |w.at_ r c'| := by
      simp [hv, List.getD_eq_getElem?_getD, List.getElem?_range (Nat.mod_lt c' hn), s2, hc'.1]
    rw [← g1, ← g2]
    have mem1 : c % n ∈ topKIndices v := by
      rw [(Aux.topK_perm v).mem_iff, List.mem_range]; simp [hv, Nat.mod_lt c hn]
    obtain ⟨a, ha, hae⟩ := List.getElem_of_mem mem1
    obtain ⟨b, hb, hbe⟩ := List.getElem_of_mem i2
    rw [List.length_take] at hb
    rw [List.getElem_take] at hbe
    have hab : b ≤ a := by
      by_contra hlt
      apply i1
      rw [← hae]
      rw [List.mem_iff_getElem]
      exact ⟨a, by rw [List.length_take]; omega, by rw [List.getElem_take]⟩
    have := Aux.topK_anti v hab ha
    rwa [hae, hbe] at this

/-- `m >= n` is rejected. -/
theorem C08_reject (w : Mat α) (m n : ℕ) (h : n ≤ m) :
    generateMByNMask w m n = .error .mNotLessThanN := by
  unfold generateMByNMask; rw [if_neg (by omega)]

/-- 2-by-4 on a row of six: two of the four, then both of the ragged pair. -/
example : (generateMByNMask (α := ℚ) ⟨1, 6, fun _ j => [1, -4, 0, 2, -1, 0].getD j 0⟩ 2 4).toOption.map
    Mat.flat = some [0, 1, 0, 1, 1, 1] := by decide +kernel

/-! ## C09 -/

theorem Aux.layout4 {h w a b c d ci co : ℕ} (ha : a < h) (hb : b < w) (hc : c < ci) (_hd : d < co) :
    let row := (d * h + a) * w + b
    row / w % h = a ∧ row % w = b ∧ row / w / h = d ∧
      (row * ci + c) / ci = row ∧ (row * ci + c) % ci = c := by
  intro row
  have e1 : row / w = d * h + a := by
    show ((d * h + a) * w + b) / w = _
    rw [Nat.mul_comm, Nat.mul_add_div (by omega), Nat.div_eq_of_lt hb, Nat.add_zero]
  have e2 : row % w = b := by
    show ((d * h + a) * w + b) % w = _
    rw [Nat.mul_comm, Nat.mul_add_mod, Nat.mod_eq_of_lt hb]
  refine ⟨?_, e2, ?_, ?_, ?_⟩
  · rw [e1, Nat.mul_comm, Nat.mul_add_mod, Nat.mod_eq_of_lt ha]
  · rw [e1, Nat.mul_comm, Nat.mul_add_div (by omega), Nat.div_eq_of_lt ha, Nat.add_zero]
  · rw [Nat.mul_comm, Nat.mul_add_div (by omega), Nat.div_eq_of_lt hc, Nat.add_zero]
  · rw [Nat.mul_comm, Nat.mul_add_mod, Nat.mod_eq_of_lt hc]

theorem Aux.maskPrepare_two (K : Mat α) (r c : ℕ) (h1 : K.rows = c) (h2 : K.cols = r) :
    maskPrepare K [r, c] =
      .ok ⟨[r, c], fun ix => match ix with | [i, j] => K.at_ j i | _ => 0⟩ := by
  unfold maskPrepare
  rw [if_neg (by simp [h1, h2, Nat.mul_comm])]
  simp only [h1, h2, and_self, if_true]
  rfl

theorem Aux.maskPrepare_four (K : Mat α) (h wd ci co : ℕ) (h1 : K.rows * K.cols = co * h * wd * ci) :
    maskPrepare K [h, wd, ci, co] =
      .ok ⟨[h, wd, ci, co], fun ix => match ix with
      | [a, b, c, d] =>
        K.at_ ((((d * h + a) * wd + b) * ci + c) / K.cols) ((((d * h + a) * wd + b) * ci + c) % K.cols)
      | _ => 0⟩ := by
  unfold maskPrepare
  rw [if_neg]
  · rfl
  · rw [h1]; simp; ring

/-- **C09.** For a rank-2 or rank-4 tensor `w` the 2-D layout `M` exists; every entry of `w` is found
at its documented position in `M`; and for *any* matrix `K` of the same size (a mask computed in
that layout), mapping `K` back succeeds, has the shape of `w`, and its value at any multi-index is
`K`'s value at the position where that entry of `w` had been put.  Mapping `M` itself back gives
`w`. -/
theorem C09_layout_lossless (w : Tensor α)
    (hrank : w.shape.length = 2 ∨ w.shape.length = 4) :
    ∃ M, weightsRearrange w = .ok M ∧
      (∀ ix, Spec.InShape ix w.shape → ∃ r c, Spec.layoutPos w.shape ix = some (r, c) ∧
        r < M.rows ∧ c < M.cols ∧ M.at_ r c = w.get ix) ∧
      (∀ K : Mat α, K.rows = M.rows → K.cols = M.cols → ∃ T, maskPrepare K w.shape = .ok T ∧
        T.shape = w.shape ∧ ∀ ix, Spec.InShape ix w.shape → ∃ r c,
          Spec.layoutPos w.shape ix = some (r, c) ∧ T.get ix = K.at_ r c) ∧
      (∃ T, maskPrepare M w.shape = .ok T ∧ ∀ ix, Spec.InShape ix w.shape → T.get ix = w.get ix) := by
  obtain ⟨shape, get⟩ := w
  rcases hrank with hr | hr
  · match shape, hr with
    | [r, c], _ =>
      refine ⟨_, rfl, ?_, ?_, ?_⟩
      · intro ix hix
        match ix, hix with
        | [a, b], ⟨h1, h2, _⟩ => exact ⟨b, a, rfl, h2, h1, rfl⟩
      · intro K h1 h2
        simp only at h1 h2
        refine ⟨_, Aux.maskPrepare_two K r c h1 h2, rfl, ?_⟩
        intro ix hix
        match ix, hix with
        | [a, b], ⟨h1, h2, _⟩ => exact ⟨b, a, rfl, rfl⟩
      · refine ⟨_, Aux.maskPrepare_two _ r c rfl rfl, ?_⟩
        intro ix hix
        match ix, hix with
        | [a, b], ⟨h1, h2, _⟩ => rfl
  · match shape, hr with
    | [h, wd, ci, co], _ =>
      have posLt : ∀ a b d, a < h → b < wd → d < co → (d * h + a) * wd + b < co * h * wd := by
        intro a b d ha hb hd
        have h1 : d * h + a + 1 ≤ co * h := by
          have := Nat.mul_le_mul_right h (show d + 1 ≤ co from hd)
          have e : (d + 1) * h = d * h + h := by ring
          omega
        have := Nat.mul_le_mul_right wd h1
        have e : (d * h + a + 1) * wd = (d * h + a) * wd + wd := by ring
        omega
      refine ⟨_, rfl, ?_, ?_, ?_⟩
      · intro ix hix
        match ix, hix with
        | [a, b, c, d], ⟨h1, h2, h3, h4, _⟩ =>
          obtain ⟨l1, l2, l3, -, -⟩ := Aux.layout4 h1 h2 h3 h4
          exact ⟨_, c, rfl, posLt a b d h1 h2 h4, h3, by simp only [l1, l2, l3]⟩
      · intro K h1 h2
        simp only at h1 h2
        refine ⟨_, Aux.maskPrepare_four K h wd ci co (by rw [h1, h2]), rfl, ?_⟩
        intro ix hix
        match ix, hix with
        | [a, b, c, d], ⟨i1, i2, i3, i4, _⟩ =>
          obtain ⟨l1, l2, l3, l4, l5⟩ := Aux.layout4 i1 i2 i3 i4
          exact ⟨_, c, rfl, by simp only [h2, l4, l5]⟩
      · refine ⟨_, Aux.maskPrepare_four _ h wd ci co rfl, ?_⟩
        intro ix hix
        match ix, hix with
        | [a, b, c, d], ⟨i1, i2, i3, i4, _⟩ =>
          obtain ⟨l1, l2, l3, l4, l5⟩ := Aux.layout4 i1 i2 i3 i4
          simp only [l4, l5, l1, l2, l3]

/-- **C09 (rejection).** Other ranks are rejected in both directions. -/
theorem C09_other_ranks (w : Tensor α) (h2 : w.shape.length ≠ 2) (h4 : w.shape.length ≠ 4) :
    weightsRearrange w = .error .badRank ∧
      ∀ K : Mat α, ∃ e, maskPrepare K w.shape = .error e := by
  obtain ⟨shape, get⟩ := w
  constructor
  · unfold weightsRearrange
    split <;> simp_all
  · intro K
    unfold maskPrepare
    split_ifs
    · exact ⟨_, rfl⟩
    · split <;> simp_all

/-- A rank-4 case: the entry `[h=1, w=0, c_in=2, c_out=1]` of a `2x2x3x2` kernel. -/
example : Spec.layoutPos [2, 2, 3, 2] [1, 0, 2, 1] = some (6, 2) ∧
    Spec.InShape [1, 0, 2, 1] [2, 2, 3, 2] := by
  simp [Spec.layoutPos, Spec.InShape]

theorem Aux.layout_surj {shape : List ℕ} (hrank : shape.length = 2 ∨ shape.length = 4)
    (get : List ℕ → α) {M : Mat α} (hM : weightsRearrange ⟨shape, get⟩ = .ok M) {r c : ℕ}
    (hr : r < M.rows) (hc : c < M.cols) :
    ∃ ix, Spec.InShape ix shape ∧ Spec.layoutPos shape ix = some (r, c) ∧
      ∀ get' M', weightsRearrange (α := α) ⟨shape, get'⟩ = .ok M' →
        M'.at_ r c = get' ix ∧ M'.rows = M.rows ∧ M'.cols = M.cols := by
  rcases hrank with h | h
  · match shape, h with
    | [a, b], _ =>
      simp only [weightsRearrange, Except.ok.injEq] at hM
      subst hM
      refine ⟨[c, r], ⟨hc, hr, trivial⟩, rfl, ?_⟩
      intro get' M' h'
      simp only [weightsRearrange, Except.ok.injEq] at h'
      subst h'
      exact ⟨rfl, rfl, rfl⟩
  · match shape, h with
    | [h, wd, ci, co], _ =>
      simp only [weightsRearrange, Except.ok.injEq] at hM
      subst hM
      simp only at hr hc
      have hw : 0 < wd := by
        rcases Nat.eq_zero_or_pos wd with z | z
        · subst z; simp at hr
        · exact z
      have hh : 0 < h := by
        rcases Nat.eq_zero_or_pos h with z | z
        · subst z; simp at hr
        · exact z
      refine ⟨[r / wd % h, r % wd, c, r / wd / h],
        ⟨Nat.mod_lt _ hh, Nat.mod_lt _ hw, hc, ?_, trivial⟩, ?_, ?_⟩
      · rw [Nat.div_lt_iff_lt_mul hh, Nat.div_lt_iff_lt_mul hw]; exact hr
      · simp only [Spec.layoutPos, Option.some.injEq, Prod.mk.injEq, and_true]
        rw [Nat.div_add_mod', Nat.div_add_mod']
      · intro get' M' h'
        simp only [weightsRearrange, Except.ok.injEq] at h'
        subst h'
        exact ⟨rfl, rfl, rfl⟩

theorem Aux.slice_count (w : Mat α) (n row g : ℕ) (hn : 1 ≤ n) :
    (((List.range n).map fun o => g * n + o).filter fun c => decide (c < w.cols)).countP
        (fun c => decide (w.at_ row c ≠ 0)) =
      ((Spec.group w.cols n g).filter fun c => w.at_ row c ≠ 0).card := by
  rw [List.countP_filter, List.countP_map, Aux.countP_range_card, Aux.group_image _ _ _ hn,
    Finset.filter_image, Finset.card_image_of_injective _ (fun a b h => by simpa using h)]
  congr 1
  ext o
  simp only [Finset.mem_filter, Finset.mem_range, Function.comp, Bool.and_eq_true,
    decide_eq_true_eq]
  constructor
  · rintro ⟨h1, h2, h3⟩; exact ⟨by omega, h2⟩
  · rintro ⟨h1, h2⟩; exact ⟨by omega, h2, by omega⟩

/-- **C08 (end to end).** For every dense (rank 2) or convolution (rank 4) weight and `m < n`, the
mask computed by the pruning code, multiplied with the weights, is accepted by the library's own
checker `is_pruned_m_by_n`. -/
theorem C08_checker_accepts (w : Tensor α) (m n : ℕ) (hmn : m < n)
    (hrank : w.shape.length = 2 ∨ w.shape.length = 4) :
    ∃ T, updateMaskMByN w m n = some T ∧ T.shape = w.shape ∧
      isPrunedMByN (w.mul T) m n = .ok true := by
  obtain ⟨M, hM, hpos, hback, -⟩ := C09_layout_lossless w hrank
  obtain ⟨K, hK, k1, k2, k01, kcount, -, -⟩ := C08_mask M m n hmn
  obtain ⟨T, hT, hTs, hTget⟩ := hback K k1 k2
  refine ⟨T, by simp [updateMaskMByN, hM, hK, hT, Except.toOption], hTs, ?_⟩
  unfold isPrunedMByN
  rw [if_neg (by omega)]
  obtain ⟨P, hP, -⟩ := C09_layout_lossless (w.mul T) hrank
  rw [hP]
  simp only [Except.ok.injEq]
  unfold isPrunedMat
  rw [List.all_eq_true]
  intro row hrow
  rw [List.all_eq_true]
  intro g hg
  rw [List.mem_range] at hrow hg
  rw [decide_eq_true_eq, Aux.slice_count _ _ _ _ (by omega)]
  -- dimensions agree
  have hdim : P.rows = M.rows ∧ P.cols = M.cols := by
    obtain ⟨shape, get⟩ := w
    rcases hrank with h | h
    · match shape, h with
      | [a, b], _ =>
        simp only [weightsRearrange, Tensor.mul, Except.ok.injEq] at hM hP
        subst hM; subst hP; exact ⟨rfl, rfl⟩
    · match shape, h with
      | [a, b, c, d], _ =>
        simp only [weightsRearrange, Tensor.mul, Except.ok.injEq] at hM hP
        subst hM; subst hP; exact ⟨rfl, rfl⟩
  have hg' : g * n < M.cols := by
    have := Aux.mul_lt_of_lt_sameOut (h := P.cols) (b := n) (I := g) (by omega) hg
    omega
  have hsub : ((Spec.group P.cols n g).filter fun c => P.at_ row c ≠ 0) ⊆
      ((Spec.group M.cols n g).filter fun c => K.at_ row c = 1) := by
    intro c hc
    rw [hdim.2] at hc
    simp only [Finset.mem_filter] at hc ⊢
    refine ⟨hc.1, ?_⟩
    have hcM : c < M.cols := by
      have := hc.1
      simp only [Spec.group, Finset.mem_filter, Finset.mem_range] at this
      exact this.1
    obtain ⟨ix, hin, hlp, hall⟩ := Aux.layout_surj hrank w.get hM (by omega : row < M.rows) hcM
    have e1 := (hall _ P hP).1
    obtain ⟨r', c', hlp', hT'⟩ := hTget ix hin
    rw [hlp] at hlp'
    simp only [Option.some.injEq, Prod.mk.injEq] at hlp'
    obtain ⟨rfl, rfl⟩ := hlp'
    rcases k01 row c hcM with z | o
    · exfalso; apply hc.2
      rw [e1]
      simp [hT', z]
    · exact o
  calc _ ≤ ((Spec.group M.cols n g).filter fun c => K.at_ row c = 1).card := Finset.card_le_card hsub
    _ ≤ n - m := by rw [kcount row g hg']; exact min_le_right _ _

/-- What the checker accepts is m-by-n sparsity in the stated sense: every full group of `n`
consecutive entries of a row has at least `m` zeros. -/
theorem C08_checker_sound (w : Mat α) (m n : ℕ) (hmn : m ≤ n) (hn : 1 ≤ n)
    (h : isPrunedMat w m n = true) (r g : ℕ) (hr : r < w.rows) (hg : g * n + n ≤ w.cols) :
    m ≤ ((Spec.group w.cols n g).filter fun c => w.at_ r c = 0).card := by
  unfold isPrunedMat at h
  rw [List.all_eq_true] at h
  have h1 := h r (List.mem_range.2 hr)
  rw [List.all_eq_true] at h1
  have hgl : g < (w.cols + n - 1) / n := by
    rw [Nat.lt_iff_add_one_le, Nat.le_div_iff_mul_le (by omega)]
    have : (g + 1) * n = g * n + n := by ring
    omega
  have h2 := h1 g (List.mem_range.2 hgl)
  rw [decide_eq_true_eq, Aux.slice_count _ _ _ _ hn] at h2
  have h3 := Finset.card_filter_add_card_filter_not (s := Spec.group w.cols n g)
    (fun c => w.at_ r c = 0)
  rw [Aux.group_card _ _ _ hn] at h3
  simp only [ne_eq] at h2
  omega

/-- **C08 (the checker's verdict).**  For dense and convolution weights the checker answers if and only
if `m ≤ n`. -/
theorem C08_checker_total (w : Tensor α) (m n : ℕ)
    (hrank : w.shape.length = 2 ∨ w.shape.length = 4) :
    (∃ b, isPrunedMByN w m n = .ok b) ↔ m ≤ n := by
  obtain ⟨M, hM, -⟩ := C09_layout_lossless w hrank
  unfold isPrunedMByN
  rw [hM]
  by_cases h : m > n
  · rw [if_pos h]
    constructor
    · rintro ⟨b, hb⟩; cases hb
    · intro h'; omega
  · rw [if_neg h]
    exact ⟨fun _ => by omega, fun _ => ⟨_, rfl⟩⟩

/-- **C08 (the checker is complete).**  A matrix in which every group, also the ragged last one, has at
most `n - m` nonzero entries is accepted. -/
theorem C08_checker_complete (w : Mat α) (m n : ℕ) (hn : 1 ≤ n)
    (h : ∀ r g, r < w.rows → g * n < w.cols →
      ((Spec.group w.cols n g).filter fun c => w.at_ r c ≠ 0).card ≤ n - m) :
    isPrunedMat w m n = true := by
  unfold isPrunedMat
  rw [List.all_eq_true]
  intro r hr
  rw [List.all_eq_true]
  intro g hg
  rw [decide_eq_true_eq, Aux.slice_count _ _ _ _ hn]
  refine h r g (List.mem_range.1 hr) ?_
  have := List.mem_range.1 hg
  rw [Nat.lt_iff_add_one_le, Nat.le_div_iff_mul_le (by omega)] at this
  have e : (g + 1) * n = g * n + n := by ring
  omega

example : (isPrunedMByN (α := ℚ) ⟨[4, 1], fun ix => match ix with | [0, 0] => 3 | _ => 0⟩ 2 4).toOption
    = some true := by decide +kernel

end Verif.Props
