import Verif.Checkpoint
import Verif.Props.Resume
import Verif.Props.Preserve

/-!
# Property C108: resuming cluster preserving quantization
-/

set_option linter.unusedSectionVars false
namespace Verif.Props
open Verif Verif.Quant Verif.Clustering Verif.Encoding

variable {α : Type*} [Field α] [LinearOrder α] [IsStrictOrderedRing α] [FloorRing α]

/-- Two kernels have the same groups of equal entries; if zeros are to be preserved, they have the same zeros, and
(when the kernel is clustered per channel) every channel has one. -/
structure Spec.SameGroups (isConv flag : Bool) (t t' : QTensor α) : Prop where
  shape : t'.shape = t.shape
  length : t'.data.length = t.data.length
  groups : ∀ (i j : ℕ) (hi : i < t.data.length) (hj : j < t.data.length),
    t'.data[i]'(length ▸ hi) = t'.data[j]'(length ▸ hj) ↔ t.data[i] = t.data[j]
  zeros : flag = true → ∀ (i : ℕ) (hi : i < t.data.length), t'.data[i]'(length ▸ hi) = 0 ↔ t.data[i] = 0
  zeroInChannels : flag = true → Spec.PerChannel isConv t → ∀ c < t.dim, 0 ∈ column t.dim t.data c

namespace Aux

/-- The pairs with different first components, in order of first occurrence. -/
def pairs : List (α × α) → List (α × α)
  | [] => []
  | p :: ps => p :: (pairs ps).filter fun q => q.1 ≠ p.1

theorem pairs_mem (P : List (α × α)) : ∀ q ∈ pairs P, q ∈ P := by
  induction P with
  | nil => simp [pairs]
  | cons p ps ih =>
    intro q hq
    rcases List.mem_cons.1 hq with rfl | hq
    · exact List.mem_cons_self
    · exact List.mem_cons_of_mem _ (ih q (List.mem_filter.1 hq).1)

theorem uniques_fst (P : List (α × α)) : uniques (P.map Prod.fst) = (pairs P).map Prod.fst := by
  induction P with
  | nil => rfl
  | cons p ps ih =>
    rw [List.map_cons, uniques, pairs, List.map_cons, ih, List.filter_map]
    rfl

theorem uniques_snd (P : List (α × α)) (h : ∀ p ∈ P, ∀ q ∈ P, p.2 = q.2 ↔ p.1 = q.1) :
    uniques (P.map Prod.snd) = (pairs P).map Prod.snd := by
  induction P with
  | nil => rfl
  | cons p ps ih =>
    rw [List.map_cons, uniques, pairs, List.map_cons,
      ih fun a ha b hb => h a (List.mem_cons_of_mem _ ha) b (List.mem_cons_of_mem _ hb), List.filter_map]
    congr 2
    refine List.filter_congr fun q hq => ?_
    have := h q (List.mem_cons_of_mem _ (pairs_mem ps q hq)) p List.mem_cons_self
    simp [this]

/-- Two lists with the same groups of equal entries. -/
structure Grouped (l l' : List α) : Prop where
  length : l'.length = l.length
  groups : ∀ (i j : ℕ) (hi : i < l.length) (hj : j < l.length),
    l'[i]'(length ▸ hi) = l'[j]'(length ▸ hj) ↔ l[i] = l[j]

theorem zip_grouped {l l' : List α} (h : Grouped l l') :
    ∀ p ∈ l.zip l', ∀ q ∈ l.zip l', p.2 = q.2 ↔ p.1 = q.1 := by
  intro p hp q hq
  obtain ⟨i, hi, rfl⟩ := List.mem_iff_getElem.1 hp
  obtain ⟨j, hj, rfl⟩ := List.mem_iff_getElem.1 hq
  simp only [List.getElem_zip]
  exact h.groups i j _ _

theorem grouped_uniques {l l' : List α} (h : Grouped l l') :
    uniques l = (pairs (l.zip l')).map Prod.fst ∧ uniques l' = (pairs (l.zip l')).map Prod.snd := by
  have h1 := uniques_fst (l.zip l')
  have h2 := uniques_snd (l.zip l') (zip_grouped h)
  rw [List.map_fst_zip (by rw [h.length])] at h1
  rw [List.map_snd_zip (by rw [h.length])] at h2
  exact ⟨h1, h2⟩

theorem grouped_length {l l' : List α} (h : Grouped l l') : (uniques l').length = (uniques l).length := by
  obtain ⟨h1, h2⟩ := grouped_uniques h
  rw [h1, h2, List.length_map, List.length_map]

/-- The position of the zero of a list without repetitions followed by ones. -/
theorem argmin_zero {row : List α} {k : ℕ} (hk : k < row.length) (h0 : row[k] = 0)
    (hu : ∀ (i : ℕ) (hi : i < row.length), row[i] = 0 → i = k) : argmin (row.map fun c => |c|) = k := by
  have hm : (0 : α) ∈ row := List.mem_of_getElem h0
  have h1 := argmin_abs_zero hm
  have h2 := (argmin_spec (row.map fun c => |c|) (by
    intro he; rw [List.map_eq_nil_iff] at he; rw [he] at hm; simp at hm)).1
  rw [List.length_map] at h2
  rw [List.getD_eq_getElem _ _ h2] at h1
  exact hu _ h2 h1

theorem grouped_argmin {l l' : List α} (h : Grouped l l')
    (hz : ∀ (i : ℕ) (hi : i < l.length), l'[i]'(h.length ▸ hi) = 0 ↔ l[i] = 0) (hm : (0 : α) ∈ l) (n : ℕ) :
    argmin ((uniques l' ++ List.replicate n 1).map fun c => |c|) =
      argmin ((uniques l ++ List.replicate n 1).map fun c => |c|) := by
  obtain ⟨h1, h2⟩ := grouped_uniques h
  have hlen := grouped_length h
  obtain ⟨k, hk, e⟩ := List.mem_iff_getElem.1 ((uniques_mem l 0).2 hm)
  have hpz : ∀ p ∈ l.zip l', p.2 = 0 ↔ p.1 = 0 := by
    intro p hp
    obtain ⟨i, hi, rfl⟩ := List.mem_iff_getElem.1 hp
    simp only [List.getElem_zip]
    exact hz i _
  have e' : (uniques l')[k]'(hlen ▸ hk) = 0 := by
    have hkp : k < (pairs (l.zip l')).length := by rw [h1, List.length_map] at hk; exact hk
    have a1 : (uniques l')[k]'(hlen ▸ hk) = ((pairs (l.zip l'))[k]).2 := by
      simp only [h2, List.getElem_map]
    have a2 : (uniques l)[k] = ((pairs (l.zip l'))[k]).1 := by
      simp only [h1, List.getElem_map]
    rw [a1, hpz _ (pairs_mem _ _ (List.getElem_mem hkp)), ← a2, e]
  have uniq : ∀ (u : List α), u.Nodup → ∀ (hk : k < u.length), u[k] = 0 →
      argmin ((u ++ List.replicate n 1).map fun c => |c|) = k := by
    intro u hu hk h0
    refine argmin_zero (by rw [List.length_append]; omega) (by rw [List.getElem_append_left hk, h0]) ?_
    intro i hi hi0
    by_cases hlt : i < u.length
    · rw [List.getElem_append_left hlt] at hi0
      exact (hu.getElem_inj_iff).1 (hi0.trans h0.symm)
    · rw [List.getElem_append_right (by omega), List.getElem_replicate] at hi0
      exact absurd hi0 one_ne_zero
  rw [uniq _ (uniques_nodup l') (hlen ▸ hk) e', uniq _ (uniques_nodup l) hk e]

theorem column_grouped {t t' : QTensor α} (hp : Spec.ProperTensor t) (hs : t'.shape = t.shape)
    (h : Grouped t.data t'.data) {c : ℕ} (hc : c < t.dim) :
    Grouped (column t.dim t.data c) (column t'.dim t'.data c) ∧
    ((∀ (i : ℕ) (hi : i < t.data.length), t'.data[i]'(h.length ▸ hi) = 0 ↔ t.data[i] = 0) →
      ∀ (i : ℕ) (hi : i < (column t.dim t.data c).length) (hi' : i < (column t'.dim t'.data c).length),
        (column t'.dim t'.data c)[i] = 0 ↔ (column t.dim t.data c)[i] = 0) := by
  have hdim : t'.dim = t.dim := by unfold QTensor.dim; rw [hs]
  obtain ⟨hd, rows, hr, hl⟩ := Aux.proper_dim hp
  have hdiv : t.data.length / t.dim = rows := by rw [hl, Nat.mul_div_cancel _ hd]
  have hlt : ∀ r < rows, r * t.dim + c < t.data.length := by
    intro r hr
    rw [hl]
    calc r * t.dim + c < r * t.dim + t.dim := by omega
      _ = (r + 1) * t.dim := by ring
      _ ≤ rows * t.dim := Nat.mul_le_mul_right _ hr
  have hlen : (column t.dim t.data c).length = rows := by unfold column; simp [hdiv]
  have hlen' : (column t'.dim t'.data c).length = rows := by
    unfold column; rw [hdim, h.length]; simp [hdiv]
  have g1 : ∀ (i : ℕ) (hi : i < (column t.dim t.data c).length),
      (column t.dim t.data c)[i] = t.data[i * t.dim + c]'(hlt i (hlen ▸ hi)) := by
    intro i hi
    have := hlt i (hlen ▸ hi)
    simp only [column, List.getElem_map, List.getElem_range]
    rw [List.getD_eq_getElem _ _ this]
  have g2 : ∀ (i : ℕ) (hi : i < (column t'.dim t'.data c).length),
      (column t'.dim t'.data c)[i] = t'.data[i * t.dim + c]'(h.length ▸ hlt i (hlen' ▸ hi)) := by
    intro i hi
    have := hlt i (hlen' ▸ hi)
    rw [← h.length] at this
    simp only [column, List.getElem_map, List.getElem_range, hdim]
    rw [List.getD_eq_getElem _ _ this]
  refine ⟨⟨by rw [hlen, hlen'], fun i j hi hj => ?_⟩, fun hz i hi hi' => ?_⟩
  · rw [g1 i hi, g1 j hj, g2 i (by rw [hlen', ← hlen]; exact hi), g2 j (by rw [hlen', ← hlen]; exact hj)]
    exact h.groups _ _ _ _
  · rw [g1 i hi, g2 i hi']
    exact hz _ _

theorem sparsityMask_same {d d' : List α} (hlen : d'.length = d.length)
    (hz : ∀ (i : ℕ) (hi : i < d.length), d'[i]'(hlen ▸ hi) = 0 ↔ d[i] = 0) : sparsityMask d' = sparsityMask d := by
  unfold sparsityMask
  refine List.ext_getElem (by simp [hlen]) fun i h1 h2 => ?_
  simp only [List.getElem_map]
  simp only [List.length_map] at h1 h2
  have := hz i h2
  unfold divideNoNan
  by_cases h0 : d[i] = 0
  · rw [if_pos h0, if_pos (this.2 h0)]
  · rw [if_neg h0, if_neg (fun h => h0 (this.1 h)), div_self h0, div_self (fun h => h0 (this.1 h))]

/-- The mask of the centroids of a row, 347-349. -/
def centMask (num : ℕ) (row : List α) : List α :=
  (List.range num).map fun j => (1 : α) - if j = argmin (row.map fun c => |c|) then 1 else 0

theorem grouped_of {isConv flag : Bool} {t t' : QTensor α} (hg : Spec.SameGroups isConv flag t t') :
    Grouped t.data t'.data := ⟨hg.length, hg.groups⟩

theorem getCentroids_same {isConv flag : Bool} {t t' : QTensor α} (hp : Spec.ProperTensor t)
    (hg : Spec.SameGroups isConv flag t t') :
    (getCentroids isConv t').2 = (getCentroids isConv t).2 ∧
    (getCentroids isConv t').1.map List.length = (getCentroids isConv t).1.map List.length ∧
    (flag = true → (0 : α) ∈ t.data → (getCentroids isConv t').1.map (centMask (getCentroids isConv t).2.1) =
      (getCentroids isConv t).1.map (centMask (getCentroids isConv t).2.1)) := by
  have hdim : t'.dim = t.dim := by unfold QTensor.dim; rw [hg.shape]
  have hcount : ∀ c < t.dim, (uniques (column t'.dim t'.data c)).length = (uniques (column t.dim t.data c)).length :=
    fun c hc => grouped_length (column_grouped hp hg.shape (grouped_of hg) hc).1
  have hcount' : ∀ c < t.dim, Spec.channelCount t' c = Spec.channelCount t c := by
    intro c hc
    have := hcount c hc
    rw [uniques_length, uniques_length] at this
    exact this
  have hpc : Spec.PerChannel isConv t' ↔ Spec.PerChannel isConv t := by
    unfold Spec.PerChannel
    rw [hdim]
    refine and_congr_right fun _ => ⟨fun h c hc c' hc' => ?_, fun h c hc c' hc' => ?_⟩
    · rw [← hcount' c hc, ← hcount' c' hc']; exact h c hc c' hc'
    · rw [hcount' c hc, hcount' c' hc']; exact h c hc c' hc'
  have hwl := grouped_length (grouped_of hg)
  have hwd : Spec.distinct t'.data = Spec.distinct t.data := by rw [← uniques_length, ← uniques_length, hwl]
  by_cases hc : Spec.PerChannel isConv t
  · obtain ⟨N, h1, h2⟩ := Aux.channel_max hp
    have hN : ∀ c < t'.dim, Spec.channelCount t' c ≤ N := by
      intro c hc; rw [hdim] at hc; rw [hcount' c hc]; exact h1 c hc
    have hN' : ∃ c < t'.dim, Spec.channelCount t' c = N := by
      obtain ⟨c, hc, e⟩ := h2
      exact ⟨c, hdim ▸ hc, by rw [hcount' c hc, e]⟩
    rw [getCentroids_channel hc h1 h2, getCentroids_channel (hpc.2 hc) hN hN']
    refine ⟨rfl, ?_, fun hf _ => ?_⟩
    · dsimp only
      rw [List.map_map, List.map_map, hdim]
      refine List.map_congr_left fun c hc => ?_
      have hc := List.mem_range.1 hc
      have a := hcount c hc
      rw [hdim] at a
      have b := hcount' c hc
      rw [Function.comp_apply, Function.comp_apply, List.length_append, List.length_append, a, List.length_replicate,
        List.length_replicate, b]
    · dsimp only
      rw [List.map_map, List.map_map, hdim]
      refine List.map_congr_left fun c hc' => ?_
      have hc' := List.mem_range.1 hc'
      have b := hcount' c hc'
      have g := column_grouped hp hg.shape (grouped_of hg) hc'
      have hz := g.2 (hg.zeros hf)
      have := grouped_argmin g.1 (fun i hi => hz i hi _) (hg.zeroInChannels hf hc c hc') (N - Spec.channelCount t c)
      rw [hdim] at this
      rw [Function.comp_apply, Function.comp_apply, centMask, centMask, b, this]
  · rw [getCentroids_whole hc, getCentroids_whole (fun h => hc (hpc.1 h)), hwd]
    refine ⟨rfl, by simp [hwl], fun hf h0 => ?_⟩
    have := grouped_argmin (grouped_of hg) (hg.zeros hf) h0 0
    simp only [List.replicate_zero, List.append_nil] at this
    simp only [List.map_cons, List.map_nil, centMask, this]

theorem cp_build_same (cfg : QCfg) {isConv flag : Bool} {t t' : QTensor α} (hp : Spec.ProperTensor t)
    (hg : Spec.SameGroups isConv flag t t') :
    (CPBuild cfg isConv flag t').1 = (CPBuild cfg isConv flag t).1 ∧
    (CPBuild cfg isConv flag t').2.1 = (CPBuild cfg isConv flag t).2.1 ∧
    (CPBuild cfg isConv flag t').2.2.cents.map List.length = (CPBuild cfg isConv flag t).2.2.cents.map List.length := by
  obtain ⟨h1, h2, h3⟩ := getCentroids_same hp hg
  have hflag : (flag && t'.data.any fun x => decide (x = 0)) = (flag && t.data.any fun x => decide (x = 0)) := by
    cases hf : flag with
    | false => rfl
    | true =>
      rw [Bool.true_and, Bool.true_and, Bool.eq_iff_iff, List.any_eq_true, List.any_eq_true]
      simp only [decide_eq_true_eq]
      constructor
      · rintro ⟨x, hx, rfl⟩
        obtain ⟨i, hi, e⟩ := List.mem_iff_getElem.1 hx
        exact ⟨_, List.getElem_mem (hg.length ▸ hi), (hg.zeros hf i (hg.length ▸ hi)).1 e⟩
      · rintro ⟨x, hx, rfl⟩
        obtain ⟨i, hi, e⟩ := List.mem_iff_getElem.1 hx
        exact ⟨_, List.getElem_mem _, (hg.zeros hf i hi).2 e⟩
  unfold CPBuild
  dsimp only
  have h11 := congrArg Prod.fst h1
  have h12 := congrArg Prod.snd h1
  rw [hflag, h11, h12, hg.shape]
  refine ⟨rfl, ?_, h2⟩
  congr 1
  by_cases hf : (flag && t.data.any fun x => decide (x = 0)) = true
  · rw [if_pos hf, if_pos hf]
    rw [Bool.and_eq_true, List.any_eq_true] at hf
    obtain ⟨hf, x, hx, h0⟩ := hf
    rw [decide_eq_true_eq] at h0
    subst h0
    have := h3 hf hx
    unfold centMask at this
    rw [this, sparsityMask_same hg.length (hg.zeros hf)]
  · rw [if_neg hf, if_neg hf]

/-- What a history of a layer keeps. -/
structure CPShapes (b : CPBuilt α) (n : ℕ) (L : List ℕ) (s : CPState α) : Prop where
  orig : s.orig.length = n
  kernel : s.kernel.length = n
  cents : s.cents.map List.length = L

/-- The masks have the shapes of the variables. -/
def MaskShapes (b : CPBuilt α) (n : ℕ) (L : List ℕ) : Prop :=
  ∀ m cm, b.masks = some (m, cm) → m.length = n ∧ cm.map List.length = L

theorem zip_lengths (a b : List (List α)) (h : a.map List.length = b.map List.length) :
    (List.zipWith (List.zipWith (· * ·)) a b).map List.length = a.map List.length := by
  induction a generalizing b with
  | nil => rfl
  | cons x xs ih =>
    cases b with
    | nil => simp at h
    | cons y ys =>
      simp only [List.map_cons, List.cons.injEq] at h
      simp only [List.zipWith_cons_cons, List.map_cons, ih ys h.2, List.length_zipWith, h.1, min_self]

theorem cp_step_shapes {cfg : QCfg} {b : CPBuilt α} {n : ℕ} {L : List ℕ} (hm : MaskShapes b n L) {s s' : CPState α}
    {e : CPEvent α} {os : List (QTensor α)} (hs : CPShapes b n L s) (h : b.step cfg s e = some (os, s')) :
    CPShapes b n L s' := by
  cases e with
  | optimizer orig cents kernel =>
    unfold CPBuilt.step at h
    dsimp only at h
    split_ifs at h with ha
    · cases h
      refine ⟨by simp [hs.orig], hs.kernel, ?_⟩
      rw [← hs.cents]
      refine List.ext_getElem (by simp) fun i h1 h2 => ?_
      simp
    · cases h
      exact ⟨hs.orig, by simp [hs.kernel], hs.cents⟩
  | call training flag =>
    simp only [CPBuilt.step, CPBuilt.call, Option.map_eq_some_iff, Option.bind_eq_some_iff] at h
    obtain ⟨⟨o, s₃⟩, ⟨⟨out, s₄⟩, k1, ⟨o', v'⟩, k2, k3⟩, k4⟩ := h
    cases k3
    cases k4
    suffices hs4 : CPShapes b n L s₄ from ⟨hs4.orig, hs4.kernel, hs4.cents⟩
    unfold CPBuilt.prepare at k1
    split_ifs at k1 with h1 h2 h3 h4
    · cases hb : b.masks with
      | none => rw [hb] at k1; cases k1
      | some m =>
        rw [hb] at k1
        obtain ⟨m, cm⟩ := m
        cases k1
        obtain ⟨m1, m2⟩ := hm m cm hb
        have ho : (Quant.applyMask s.orig m).length = n := by
          unfold Quant.applyMask; rw [List.length_zipWith, hs.orig, m1, min_self]
        exact ⟨ho, by unfold CPBuilt.clustered; rw [List.length_mapIdx, ho],
          (zip_lengths _ _ (by rw [hs.cents, m2])).trans hs.cents⟩
    · cases k1
      exact ⟨hs.orig, by unfold CPBuilt.clustered; rw [List.length_mapIdx, hs.orig], hs.cents⟩
    · cases hb : b.masks with
      | none => rw [hb] at k1; cases k1
      | some m => rw [hb] at k1; cases k1; exact hs
    · cases k1; exact hs
    · cases k1; exact hs

theorem cp_run_shapes {cfg : QCfg} {b : CPBuilt α} {n : ℕ} {L : List ℕ} (hm : MaskShapes b n L)
    (evs : List (CPEvent α)) : ∀ {s s' : CPState α} {os : List (QTensor α)}, CPShapes b n L s →
      b.run cfg s evs = some (os, s') → CPShapes b n L s' := by
  induction evs with
  | nil =>
    intro s s' os hs h
    cases h
    exact hs
  | cons e evs ih =>
    intro s s' os hs h
    simp only [CPBuilt.run, Option.bind_eq_some_iff, Option.map_eq_some_iff] at h
    obtain ⟨⟨o1, s1⟩, g1, ⟨o2, s2⟩, g2, g3⟩ := h
    cases g3
    exact ih (cp_step_shapes hm hs g1) g2

theorem getCentroids_rows (isConv : Bool) (t : QTensor α) :
    ∀ row ∈ (getCentroids isConv t).1, row.length = (getCentroids isConv t).2.1 := by
  unfold getCentroids
  dsimp only
  split_ifs with h
  · simp
  · intro row hrow
    dsimp only at hrow ⊢
    obtain ⟨r, hr, rfl⟩ := List.mem_map.1 hrow
    have := foldr_max_le (List.mem_map.2 ⟨r, hr, rfl⟩ : r.length ∈ List.map List.length _)
    rw [List.length_append, List.length_replicate]
    omega

theorem cp_build_shapes (cfg : QCfg) (isConv flag : Bool) (t : QTensor α) :
    MaskShapes (CPBuild cfg isConv flag t).2.1 t.data.length ((CPBuild cfg isConv flag t).2.2.cents.map List.length) ∧
    CPShapes (CPBuild cfg isConv flag t).2.1 t.data.length ((CPBuild cfg isConv flag t).2.2.cents.map List.length)
      (CPBuild cfg isConv flag t).2.2 := by
  refine ⟨?_, ⟨rfl, rfl, rfl⟩⟩
  intro m cm h
  unfold CPBuild at h ⊢
  dsimp only at h ⊢
  split_ifs at h with hf
  cases h
  refine ⟨by simp [sparsityMask], ?_⟩
  rw [List.map_map]
  refine List.map_congr_left fun row hrow => ?_
  rw [getCentroids_rows isConv t row hrow]
  simp

/-- Two states of a layer with the same variables. -/
structure CPSame (b : CPBuilt α) (s s' : CPState α) : Prop where
  clusters : b.active = true → s'.orig = s.orig ∧ s'.cents = s.cents
  kernel : s'.kernel = s.kernel
  vars : s'.vars = s.vars

theorem cp_same_save {b : CPBuilt α} {s s' : CPState α} (h : CPSame b s s') : b.save s' = b.save s := by
  unfold CPBuilt.save
  rw [h.kernel, h.vars]
  split_ifs with ha
  · rw [(h.clusters ha).1, (h.clusters ha).2]
  · rfl

theorem cp_same_step {cfg : QCfg} {b : CPBuilt α} {s s' : CPState α} (h : CPSame b s s') (e : CPEvent α) :
    (b.step cfg s e = none ∧ b.step cfg s' e = none) ∨
    ∃ os u u', b.step cfg s e = some (os, u) ∧ b.step cfg s' e = some (os, u') ∧ CPSame b u u' := by
  by_cases ha : b.active = true
  · have : s' = s := by
      obtain ⟨o, c, k, v⟩ := s
      obtain ⟨o', c', k', v'⟩ := s'
      obtain ⟨h1, h2, h3⟩ := h
      obtain ⟨h1, h4⟩ := h1 ha
      dsimp only at h1 h2 h3 h4
      rw [h1, h2, h3, h4]
    subst this
    cases hs : b.step cfg s' e with
    | none => exact .inl ⟨rfl, rfl⟩
    | some r => exact .inr ⟨r.1, r.2, r.2, rfl, rfl, ⟨fun _ => ⟨rfl, rfl⟩, rfl, rfl⟩⟩
  · cases e with
    | optimizer orig cents kernel =>
      exact .inr ⟨[], { s with kernel := s.kernel.mapIdx fun i _ => kernel i },
        { s' with kernel := s.kernel.mapIdx fun i _ => kernel i }, by simp only [CPBuilt.step]; rw [if_neg ha],
        by simp only [CPBuilt.step]; rw [if_neg ha, h.kernel], ⟨fun h => absurd h ha, rfl, h.vars⟩⟩
    | call training flag =>
      have key : (b.prepare training flag s = none ∧ b.prepare training flag s' = none) ∨
          ∃ out, b.prepare training flag s = some (out, s) ∧ b.prepare training flag s' = some (out, s') := by
        unfold CPBuilt.prepare
        rw [h.kernel]
        simp only [ha]
        cases training with
        | false => exact .inr ⟨_, rfl, rfl⟩
        | true =>
          cases flag with
          | false => exact .inr ⟨_, rfl, rfl⟩
          | true =>
            cases b.masks with
            | none => exact .inl ⟨rfl, rfl⟩
            | some m => exact .inr ⟨_, rfl, rfl⟩
      rcases key with ⟨k1, k2⟩ | ⟨out, k1, k2⟩
      · exact .inl ⟨by simp [CPBuilt.step, CPBuilt.call, k1], by simp [CPBuilt.step, CPBuilt.call, k2]⟩
      · cases hq : QKind.lastValue.call cfg s.vars training ⟨b.shape, out⟩ with
        | none =>
          exact .inl ⟨by simp [CPBuilt.step, CPBuilt.call, k1, hq], by simp [CPBuilt.step, CPBuilt.call, k2, h.vars, hq]⟩
        | some r =>
          exact .inr ⟨[r.1], { s with vars := r.2 }, { s' with vars := r.2 },
            by simp [CPBuilt.step, CPBuilt.call, k1, hq], by simp [CPBuilt.step, CPBuilt.call, k2, h.vars, hq],
            ⟨fun h => absurd h ha, h.kernel, rfl⟩⟩

theorem cp_same_run {cfg : QCfg} {b : CPBuilt α} (evs : List (CPEvent α)) : ∀ {s s' : CPState α}, CPSame b s s' →
    (b.run cfg s' evs).map (fun r => (r.1, b.save r.2)) = (b.run cfg s evs).map fun r => (r.1, b.save r.2) := by
  induction evs with
  | nil =>
    intro s s' h
    simp only [CPBuilt.run, Option.map_some, cp_same_save h]
  | cons e evs ih =>
    intro s s' h
    unfold CPBuilt.run
    rcases cp_same_step (cfg := cfg) h e with ⟨h1, h2⟩ | ⟨os, u, u', h1, h2, h3⟩
    · rw [h1, h2]
    · rw [h1, h2, Option.bind_some, Option.bind_some]
      have := congrArg (Option.map fun r => (os ++ r.1, r.2)) (ih h3)
      simp only [Option.map_map] at this ⊢
      exact this

end Aux

/-- **C108** (cluster preserving quantization).  A layer is built from a clustered kernel and used for any history;
its variables are saved.  A layer built again from a kernel with the same groups of equal entries (for example the same
clustered model) takes them, and goes on as without the interruption: the same outputs, and the same variables, or the
same error.

Partial: the numbers of the centroids and the masks come from the kernel the layer is built with; see
`C108_cluster_preserve_violated`. -/
theorem C108_cluster_preserve_partial (cfg : QCfg) (isConv flag : Bool) (t t' : QTensor α) (hp : Spec.ProperTensor t)
    (hg : Spec.SameGroups isConv flag t t') (hist : List (CPEvent α)) (os : List (QTensor α)) (s : CPState α)
    (h : (CPBuild cfg isConv flag t).2.1.run cfg (CPBuild cfg isConv flag t).2.2 hist = some (os, s)) :
    let b := (CPBuild cfg isConv flag t).2.1
    let b' := (CPBuild cfg isConv flag t').2.1
    ∃ s', b'.restore (CPBuild cfg isConv flag t').2.2 (b.save s) = some s' ∧
      (CPBuild cfg isConv flag t').1 = (CPBuild cfg isConv flag t).1 ∧
      ∀ rest, (b'.run cfg s' rest).map (fun r => (r.1, b'.save r.2)) =
        (b.run cfg s rest).map fun r => (r.1, b.save r.2) := by
  dsimp only
  obtain ⟨h1, h2, h3⟩ := Aux.cp_build_same cfg hp hg
  obtain ⟨hm, hs₀⟩ := Aux.cp_build_shapes cfg isConv flag t
  have hs := Aux.cp_run_shapes hm hist hs₀ h
  rw [h2]
  have hk : (CPBuild cfg isConv flag t').2.2.kernel.length = t.data.length := hg.length
  have ho : (CPBuild cfg isConv flag t').2.2.orig.length = t.data.length := hg.length
  generalize hb : (CPBuild cfg isConv flag t).2.1 = b at *
  generalize (CPBuild cfg isConv flag t').2.2 = s₀' at *
  unfold CPBuilt.restore
  rw [if_pos (by rw [hk]; exact hs.kernel)]
  cases ha : b.active with
  | true =>
    have hsave : (b.save s).clusters = some (s.orig, b.perChannel, s.cents) := by simp [CPBuilt.save, ha]
    rw [hsave]
    dsimp only
    rw [if_pos ⟨rfl, by rw [hs.orig, ho], by rw [hs.cents, h3]⟩]
    exact ⟨_, rfl, h1, fun rest => Aux.cp_same_run rest ⟨fun _ => ⟨rfl, rfl⟩, rfl, rfl⟩⟩
  | false =>
    have hsave : (b.save s).clusters = none := by simp [CPBuilt.save, ha]
    rw [hsave]
    exact ⟨_, rfl, h1, fun rest => Aux.cp_same_run rest ⟨fun h => absurd (ha.symm.trans h) (by decide), rfl, rfl⟩⟩

/-- **C108** (cluster preserving quantization, the same clustered model).  If the layer is built again from the same
kernel, training goes on as without the interruption, for kernels of any shape, with or without zeros. -/
theorem C108_cluster_preserve_same (cfg : QCfg) (isConv flag : Bool) (t : QTensor α) (hist : List (CPEvent α))
    (os : List (QTensor α)) (s : CPState α)
    (h : (CPBuild cfg isConv flag t).2.1.run cfg (CPBuild cfg isConv flag t).2.2 hist = some (os, s)) :
    let b := (CPBuild cfg isConv flag t).2.1
    ∃ s', b.restore (CPBuild cfg isConv flag t).2.2 (b.save s) = some s' ∧
      ∀ rest, (b.run cfg s' rest).map (fun r => (r.1, b.save r.2)) =
        (b.run cfg s rest).map fun r => (r.1, b.save r.2) := by
  dsimp only
  obtain ⟨hm, hs₀⟩ := Aux.cp_build_shapes cfg isConv flag t
  have hs := Aux.cp_run_shapes hm hist hs₀ h
  have hk : (CPBuild cfg isConv flag t).2.2.kernel.length = t.data.length := rfl
  have ho : (CPBuild cfg isConv flag t).2.2.orig.length = t.data.length := rfl
  generalize hb : (CPBuild cfg isConv flag t).2.1 = b at *
  generalize (CPBuild cfg isConv flag t).2.2 = s₀' at *
  unfold CPBuilt.restore
  rw [if_pos (by rw [hk]; exact hs.kernel)]
  cases ha : b.active with
  | true =>
    have hsave : (b.save s).clusters = some (s.orig, b.perChannel, s.cents) := by simp [CPBuilt.save, ha]
    rw [hsave]
    dsimp only
    rw [if_pos ⟨rfl, by rw [hs.orig, ho], hs.cents⟩]
    exact ⟨_, rfl, fun rest => Aux.cp_same_run rest ⟨fun _ => ⟨rfl, rfl⟩, rfl, rfl⟩⟩
  | false =>
    have hsave : (b.save s).clusters = none := by simp [CPBuilt.save, ha]
    rw [hsave]
    exact ⟨_, rfl, fun rest => Aux.cp_same_run rest ⟨fun h => absurd (ha.symm.trans h) (by decide), rfl, rfl⟩⟩

/-- **C108** is violated for cluster preserving quantization when the layer is built again from other weights, such
as the initial weights of a new model: whatever the history, the saved variables do not fit if the number of distinct
values of the new kernel is another one. -/
theorem C108_cluster_preserve_violated (cfg : QCfg) (flag : Bool) (t t' : QTensor α)
    (h2 : 2 ≤ Spec.distinct t.data) (h1024 : Spec.distinct t.data ≤ 1024)
    (hne : Spec.distinct t'.data ≠ Spec.distinct t.data)
    (hist : List (CPEvent α)) (os : List (QTensor α)) (s : CPState α)
    (h : (CPBuild cfg false flag t).2.1.run cfg (CPBuild cfg false flag t).2.2 hist = some (os, s)) :
    (CPBuild cfg false flag t').2.1.restore (CPBuild cfg false flag t').2.2 ((CPBuild cfg false flag t).2.1.save s) =
      none := by
  obtain ⟨hm, hs₀⟩ := Aux.cp_build_shapes cfg false flag t
  have hs := Aux.cp_run_shapes hm hist hs₀ h
  have hw := Aux.getCentroids_whole (isConv := false) (t := t) (by rintro ⟨h, -⟩; cases h)
  have hw' := Aux.getCentroids_whole (isConv := false) (t := t') (by rintro ⟨h, -⟩; cases h)
  have ha : (CPBuild cfg false flag t).2.1.active = true := by
    simp only [CPBuild, hw, Bool.and_eq_true, Bool.not_eq_true', decide_eq_true_eq, decide_eq_false_iff_not]
    omega
  have hc : (CPBuild cfg false flag t).2.2.cents.map List.length = [Spec.distinct t.data] := by
    simp only [CPBuild, hw, List.map_cons, List.map_nil, Aux.uniques_length]
  have hc' : (CPBuild cfg false flag t').2.2.cents.map List.length = [Spec.distinct t'.data] := by
    simp only [CPBuild, hw', List.map_cons, List.map_nil, Aux.uniques_length]
  have hcs := hs.cents
  rw [hc] at hcs
  unfold CPBuilt.restore
  have hsave : ((CPBuild cfg false flag t).2.1.save s).clusters =
      some (s.orig, (CPBuild cfg false flag t).2.1.perChannel, s.cents) := by simp [CPBuilt.save, ha]
  rw [hsave]
  split_ifs
  · cases (CPBuild cfg false flag t').2.1.active with
    | false => rfl
    | true =>
      dsimp only
      rw [if_neg]
      rintro ⟨-, -, h3⟩
      rw [hcs, hc'] at h3
      simp only [List.cons.injEq, and_true] at h3
      exact hne h3.symm
  · rfl

namespace Example

/-- A kernel with two clusters, a history with an optimizer step, and another kernel with the same groups and zeros. -/
example : Spec.ProperTensor (⟨[2, 2], [0, 3, 3, 0]⟩ : QTensor ℚ) ∧
    Spec.SameGroups false true (⟨[2, 2], [0, 3, 3, 0]⟩ : QTensor ℚ) ⟨[2, 2], [0, 5, 5, 0]⟩ ∧
    2 ≤ Spec.distinct ([0, 3, 3, 0] : List ℚ) ∧ Spec.distinct ([0, 3, 3, 0] : List ℚ) ≤ 1024 ∧
    Spec.distinct ([1, 2, 3, 4] : List ℚ) ≠ Spec.distinct ([0, 3, 3, 0] : List ℚ) := by
  refine ⟨⟨rfl, by simp⟩, ⟨rfl, rfl, ?_, ?_, ?_⟩, by decide +kernel, by decide +kernel, by decide +kernel⟩
  · intro i j hi hj
    exact (by decide +kernel : ∀ i j : Fin 4, ([0, 5, 5, 0] : List ℚ)[i] = ([0, 5, 5, 0] : List ℚ)[j] ↔
      ([0, 3, 3, 0] : List ℚ)[i] = ([0, 3, 3, 0] : List ℚ)[j]) ⟨i, hi⟩ ⟨j, hj⟩
  · intro _ i hi
    exact (by decide +kernel : ∀ i : Fin 4, ([0, 5, 5, 0] : List ℚ)[i] = 0 ↔ ([0, 3, 3, 0] : List ℚ)[i] = 0) ⟨i, hi⟩
  · rintro - ⟨h, -⟩; cases h

def cpResumeHistory : List (CPEvent ℚ) := [.call true true, .optimizer (fun i => if i = 1 then 3 else 2) (fun _ j => if j = 0 then 0 else 2)
  fun _ => 0]

/-- The layer goes on from the saved centroids 0 and 2 (the new kernel has 0 and 5), whose values are the next
kernel. -/
example : ((CPBuild cfgDense8 false true (⟨[2, 2], [0, 3, 3, 0]⟩ : QTensor ℚ)).2.1.run cfgDense8
      (CPBuild cfgDense8 false true (⟨[2, 2], [0, 3, 3, 0]⟩ : QTensor ℚ)).2.2 (cpResumeHistory ++ [.call true true])).map
      (fun r => (r.2.kernel, r.2.cents)) = some ([0, 2, 2, 0], [[0, 2]]) := by
  decide +kernel

/-- Rebuilding from the trained kernel fails too, if training has joined clusters. -/
example : ((CPBuild cfgDense8 false false (⟨[4], [1, 2, 3, 3]⟩ : QTensor ℚ)).2.1.run cfgDense8
      (CPBuild cfgDense8 false false (⟨[4], [1, 2, 3, 3]⟩ : QTensor ℚ)).2.2
      [.optimizer (fun i => if i < 2 then 1 else 3) (fun _ j => if j = 0 then 0 else 3) (fun _ => 0), .call true false]).map
      (fun r => (r.2.kernel, (CPBuild cfgDense8 false false ⟨[4], r.2.kernel⟩).2.1.restore
        (CPBuild cfgDense8 false false ⟨[4], r.2.kernel⟩).2.2
        ((CPBuild cfgDense8 false false (⟨[4], [1, 2, 3, 3]⟩ : QTensor ℚ)).2.1.save r.2) |>.isSome)) =
      some ([0, 0, 3, 3], false) := by
  decide +kernel

end Example
end Verif.Props
