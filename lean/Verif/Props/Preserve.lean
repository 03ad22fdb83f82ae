import Verif.Quant.Preserve
import Verif.Props.QuantOps
import Verif.Props.ClusterAlgorithm

set_option linter.unusedSectionVars false

/-!
# Sparsity and cluster preserving quantization (C52, C53)
-/

namespace Verif.Props
open Verif Verif.Quant Verif.Clustering Verif.Encoding

variable {α : Type*} [Field α] [LinearOrder α] [IsStrictOrderedRing α] [FloorRing α]

/-! ## Specification -/

/-- How many different values occur in a list. -/
def Spec.distinct (l : List α) : ℕ := l.toFinset.card

/-- `l` has the length of `l₀` and is zero wherever `l₀` is. -/
def Spec.ZerosKept (l₀ l : List α) : Prop :=
  l.length = l₀.length ∧ ∀ i (h₀ : i < l₀.length) (h : i < l.length), l₀[i] = 0 → l[i] = 0

/-- The original weights are above `-10^6` (below, the sign trick of the clustering code flips the
sign of the clustered weight, see C21). -/
def Spec.EventLow : CPEvent α → Prop
  | .call _ _ => True
  | .optimizer orig _ _ => ∀ i, -1000000 < orig i

/-- All calls are made with `preserve_sparsity` on. -/
def Spec.EventFlag : CPEvent α → Prop
  | .call _ flag => flag = true
  | .optimizer _ _ _ => True

/-- Optimizer steps leave those kernel entries at zero that were zero at build (for a layer that is not
clustered; there the training output is the masked kernel, so these entries get no gradient). -/
def Spec.EventZeros (l₀ : List α) : CPEvent α → Prop
  | .call _ _ => True
  | .optimizer _ _ kernel => ∀ i (h₀ : i < l₀.length), l₀[i] = 0 → kernel i = 0

/-! ## Helper lemmas -/

/-- The ranges contain zero. -/
def Aux.RangesOk (v : RangeVars α) : Prop := ∀ c, Spec.rangeAt v.lo c ≤ 0 ∧ 0 ≤ Spec.rangeAt v.hi c

theorem Aux.build_ok (cfg : QCfg) (shape : Option (List ℕ)) :
    Aux.RangesOk (QKind.lastValue.build cfg shape : RangeVars α) := fun c => by
  rcases Aux.build_zero (α := α) .lastValue cfg shape c with h | h <;>
    simp only [Prod.mk.injEq, Set.mem_singleton_iff] at h
  · rw [h.1, h.2]; norm_num
  · rw [h.1, h.2]; simp

theorem Aux.lv_call {cfg : QCfg} (hb : 2 ≤ cfg.numBits) {v v' : RangeVars α} {tr : Bool} {t o : QTensor α}
    (hv : Aux.RangesOk v) (hpt : Spec.ProperTensor t)
    (h : QKind.lastValue.call cfg v tr t = some (o, v')) :
    Aux.RangesOk v' ∧ o.shape = t.shape ∧ ∃ f : ℕ → α → α,
      (∀ c, Spec.QuantizedWell cfg.numBits cfg.narrow (Spec.rangeAt v'.lo c) (Spec.rangeAt v'.hi c) (f c)) ∧
      (cfg.perAxis = false → ∀ c c', f c = f c') ∧
      o.data = t.data.mapIdx fun i x => f (i % t.dim) x := by
  obtain ⟨h1, h2, h3⟩ := Aux.call_vars h
  have hv' : Aux.RangesOk v' := by
    cases tr
    · rw [h1 rfl]; exact hv
    · have hu := h2 rfl
      refine Aux.update_all hu hpt (fun a b => a ≤ 0 ∧ 0 ≤ b) (by simp) ?_
      intro c hc
      obtain ⟨m, M, g1, -, g2⟩ := Aux.update_spec hu c hc
      obtain ⟨hm, -⟩ := g1 hpt
      obtain ⟨-, -, g3, g4, -⟩ := Aux.batchRange_spec hb hm
      simp only [Prod.ext_iff] at g2
      rw [g2.1, g2.2]; exact ⟨g3, g4⟩
  obtain ⟨e1, e2, e3⟩ := Aux.fakeQuantVars_spec h3
  refine ⟨hv', e1, fun c => fakeQuant cfg.numBits cfg.narrow (Spec.rangeAt v'.lo c) (Spec.rangeAt v'.hi c),
    fun c => Aux.fakeQuant_well hb cfg.narrow (hv' c).1 (hv' c).2, ?_, ?_⟩
  · intro hpa c c'
    rw [hpa] at h3
    simp only [Bool.false_and] at h3
    unfold fakeQuantVars at h3
    split at h3
    · rename_i hlo hhi; simp [hlo, hhi, Spec.rangeAt]
    · simp at *
    · cases h3
  · refine List.ext_getElem (by simp [e2]) fun i hi₁ hi₂ => ?_
    rw [e3 i hi₁ (by rw [← e2]; exact hi₁)]
    simp

theorem Aux.mask_entry (x y : α) : y * divideNoNan x x = if x = 0 then 0 else y := by
  unfold divideNoNan
  split
  · simp
  · rename_i h; rw [div_self h, mul_one]

theorem Aux.applyMask_length {w m : List α} (h : w.length = m.length) :
    (applyMask w (sparsityMask m)).length = m.length := by
  simp [applyMask, sparsityMask, h]

theorem Aux.applyMask_getElem {w m : List α} {i : ℕ} (h : i < (applyMask w (sparsityMask m)).length)
    (hw : i < w.length) (hm : i < m.length) :
    (applyMask w (sparsityMask m))[i] = if m[i] = 0 then 0 else w[i] := by
  simp only [applyMask, sparsityMask, List.getElem_zipWith, List.getElem_map]
  rw [Aux.mask_entry]

/-! ## C52 -/

/-- C52: with the sparsity preserving quantizer built for the kernel `t₀`, after any history of
training and inference calls on arbitrary kernels of the same shape, every output is zero wherever `t₀`
was, and every other entry is the kernel's entry put through a quantization function of its channel
(with all the properties of C50). -/
theorem C52_zeros_kept (cfg : QCfg) (hb : 2 ≤ cfg.numBits) (t₀ : QTensor α) (hp₀ : Spec.ProperTensor t₀)
    (hist : List (Bool × QTensor α)) (hp : ∀ e ∈ hist, e.2.shape = t₀.shape ∧ Spec.ProperTensor e.2)
    (outs : List (QTensor α)) (v : RangeVars α)
    (h : prunePreserveHistory cfg t₀ hist = some (outs, v)) :
    outs.length = hist.length ∧
    ∀ n (h₁ : n < outs.length) (h₂ : n < hist.length),
      outs[n].shape = t₀.shape ∧ Spec.ZerosKept t₀.data outs[n].data ∧
      ∀ c, ∃ lo hi, ∃ f : α → α, Spec.QuantizedWell cfg.numBits cfg.narrow lo hi f ∧
        ∀ i (a : i < t₀.data.length) (b : i < outs[n].data.length) (d : i < hist[n].2.data.length),
          i % t₀.dim = c → t₀.data[i] ≠ 0 → outs[n].data[i] = f hist[n].2.data[i] := by
  unfold prunePreserveHistory at h
  have hv := Aux.build_ok (α := α) cfg (some t₀.shape)
  revert h
  generalize QKind.lastValue.build (α := α) cfg (some t₀.shape) = v₀ at hv
  intro h
  induction hist generalizing v₀ outs with
  | nil =>
    simp only [prunePreserveRun, Option.some.injEq, Prod.mk.injEq] at h
    obtain ⟨rfl, rfl⟩ := h
    simp
  | cons e hist ih =>
    obtain ⟨tr, t⟩ := e
    simp only [prunePreserveRun, Option.bind_eq_some_iff, Option.map_eq_some_iff] at h
    obtain ⟨⟨o, w⟩, g1, ⟨outs', w'⟩, g2, g3⟩ := h
    cases g3
    obtain ⟨hsh, hpt⟩ := hp (tr, t) List.mem_cons_self
    have hlen : t.data.length = t₀.data.length := by rw [hpt.1, hp₀.1, hsh]
    have hpm : Spec.ProperTensor (⟨t.shape, applyMask t.data (sparsityMask t₀.data)⟩ : QTensor α) := by
      refine ⟨?_, ?_⟩
      · simp only [Aux.applyMask_length hlen]; rw [hp₀.1, hsh]
      · intro he
        have := congrArg List.length he
        simp only [Aux.applyMask_length hlen, List.length_nil] at this
        exact hp₀.2 (List.length_eq_zero_iff.1 this)
    obtain ⟨q1, q2, f, q3, -, q4⟩ := Aux.lv_call hb hv hpm g1
    obtain ⟨i1, i2⟩ := ih (fun e he => hp e (List.mem_cons_of_mem _ he)) _ _ q1 g2
    refine ⟨by simp [i1], ?_⟩
    intro n h₁ h₂
    cases n with
    | succ n => exact i2 n (by simpa using h₁) (by simpa using h₂)
    | zero =>
      simp only [List.getElem_cons_zero]
      have hd : (⟨t.shape, applyMask t.data (sparsityMask t₀.data)⟩ : QTensor α).dim = t₀.dim := by
        have hsh' : t.shape = t₀.shape := hsh
        simp [QTensor.dim, hsh']
      have hent : ∀ i (a : i < t₀.data.length) (b : i < o.data.length) (d : i < t.data.length),
          o.data[i] = f (i % t₀.dim) (if t₀.data[i] = 0 then 0 else t.data[i]) := by
        intro i a b d
        simp only [q4, List.getElem_mapIdx, hd]
        rw [Aux.applyMask_getElem _ d a]
      refine ⟨by rw [q2]; exact hsh, ⟨?_, ?_⟩, ?_⟩
      · rw [q4, List.length_mapIdx]; exact Aux.applyMask_length hlen
      · intro i a b hz
        rw [hent i a b (by omega), if_pos hz]
        exact (q3 _).zero
      · intro c
        refine ⟨_, _, f c, q3 c, ?_⟩
        rintro i a b d rfl hz
        rw [hent i a b d, if_neg hz]

/-- C52: calls succeed for the two 8 bit quantizers on Dense (rank 2) and Conv2D (rank 4) kernels. -/
theorem C52_calls_succeed (t₀ : QTensor α) (hp₀ : Spec.ProperTensor t₀) (hist : List (Bool × QTensor α))
    (hp : ∀ e ∈ hist, e.2.shape = t₀.shape ∧ Spec.ProperTensor e.2) :
    (∃ r, prunePreserveHistory cfgDense8 t₀ hist = some r) ∧
    (t₀.shape.length = 4 → ∃ r, prunePreserveHistory cfgConv8 t₀ hist = some r) := by
  have hred : ∀ (cfg : QCfg) (hist : List (Bool × QTensor α)) (v : RangeVars α) (m : List α),
      prunePreserveRun cfg m v hist =
        QKind.lastValue.run cfg v (hist.map fun e => (e.1, ⟨e.2.shape, applyMask e.2.data m⟩)) := by
    intro cfg hist
    induction hist with
    | nil => intro v m; rfl
    | cons e hist ih =>
      intro v m
      simp only [prunePreserveRun, QKind.run, List.map_cons, prunePreserveCall, ih]
  unfold prunePreserveHistory
  constructor
  · rw [hred]
    exact (C74_calls_succeed_partial cfgDense8 _).1 rfl .lastValue _
  · intro hr
    rw [hred]
    refine (C74_calls_succeed_partial cfgConv8 _).2 rfl _ ?_
    intro e he
    obtain ⟨e', he', rfl⟩ := List.mem_map.1 he
    have := (hp e' he').1
    simp [perChannelRank, QTensor.dim, this, hr]

/-! ## C53: helper lemmas -/

theorem Aux.uniques_mem (l : List α) (x : α) : x ∈ uniques l ↔ x ∈ l := by
  induction l with
  | nil => simp [uniques]
  | cons y l ih =>
    simp only [uniques, List.mem_cons, List.mem_filter, ih, decide_eq_true_eq]
    by_cases h : x = y <;> simp [h]

theorem Aux.uniques_nodup (l : List α) : (uniques l).Nodup := by
  induction l with
  | nil => simp [uniques]
  | cons y l ih =>
    simp only [uniques, List.nodup_cons]
    exact ⟨by simp, ih.filter _⟩

theorem Aux.uniques_length (l : List α) : (uniques l).length = Spec.distinct l := by
  unfold Spec.distinct
  rw [← List.toFinset_card_of_nodup (Aux.uniques_nodup l)]
  congr 1
  ext x
  simp [Aux.uniques_mem]

theorem Aux.distinct_le_of_subset {l : List α} (S : List α) (h : ∀ x ∈ l, x ∈ S) :
    Spec.distinct l ≤ S.length :=
  (Finset.card_le_card (fun x hx => by
    rw [List.mem_toFinset] at hx ⊢; exact h x hx)).trans (List.toFinset_card_le S)

theorem Aux.distinct_map_le (l : List α) (f : α → α) : Spec.distinct (l.map f) ≤ Spec.distinct l := by
  unfold Spec.distinct
  have : (l.map f).toFinset = l.toFinset.image f := by ext x; simp
  rw [this]
  exact Finset.card_image_le

theorem Aux.column_mapIdx (d : ℕ) (l : List α) (f : ℕ → α → α) (c : ℕ) (hd : 0 < d) (hc : c < d)
    (hlen : d ∣ l.length) :
    column d (l.mapIdx fun i x => f (i % d) x) c = (column d l c).map (f c) := by
  unfold column
  rw [List.length_mapIdx, List.map_map]
  refine List.map_congr_left fun r hr => ?_
  rw [List.mem_range] at hr
  have hi : r * d + c < l.length := by
    obtain ⟨k, hk⟩ := hlen
    rw [hk, Nat.mul_div_cancel_left _ hd] at hr
    rw [hk]
    calc r * d + c < r * d + d := by omega
      _ = d * (r + 1) := by ring
      _ ≤ d * k := Nat.mul_le_mul_left _ hr
  rw [List.getD_eq_getElem _ _ (by simpa using hi)]
  simp only [List.getElem_mapIdx, Function.comp_apply]
  rw [Nat.add_mod, Nat.mul_mod_left, zero_add, Nat.mod_mod, Nat.mod_eq_of_lt hc, List.getD_eq_getElem _ _ hi]

/-! ### `getCentroids` -/

theorem Aux.foldr_max_le {l : List ℕ} {x : ℕ} (h : x ∈ l) : x ≤ l.foldr max 0 := by
  induction l with
  | nil => simp at h
  | cons y l ih =>
    rw [List.foldr_cons]
    rcases List.mem_cons.1 h with rfl | h
    · exact le_max_left _ _
    · exact (ih h).trans (le_max_right _ _)

theorem Aux.foldr_max_mem {l : List ℕ} (h : l ≠ []) : l.foldr max 0 ∈ l := by
  induction l with
  | nil => exact absurd rfl h
  | cons y l ih =>
    rw [List.foldr_cons]
    by_cases hl : l = []
    · subst hl; simp
    · rcases le_total y (l.foldr max 0) with h | h
      · rw [max_eq_right h]; exact List.mem_cons_of_mem _ (ih hl)
      · rw [max_eq_left h]; exact List.mem_cons_self

theorem Aux.foldr_min_le {l : List ℕ} {x b : ℕ} (h : x ∈ l) : l.foldr min b ≤ x := by
  induction l with
  | nil => simp at h
  | cons y l ih =>
    rw [List.foldr_cons]
    rcases List.mem_cons.1 h with rfl | h
    · exact min_le_left _ _
    · exact (min_le_right _ _).trans (ih h)

theorem Aux.foldr_min_mem {l : List ℕ} {b : ℕ} : l.foldr min b ∈ l ∨ l.foldr min b = b := by
  induction l with
  | nil => simp
  | cons y l ih =>
    rw [List.foldr_cons]
    rcases le_total y (l.foldr min b) with h | h
    · rw [min_eq_left h]; simp
    · rw [min_eq_right h]
      rcases ih with ih | ih
      · exact .inl (List.mem_cons_of_mem _ ih)
      · exact .inr ih

/-- Distinct values of channel `c`. -/
abbrev Spec.channelCount (t : QTensor α) (c : ℕ) : ℕ := Spec.distinct (column t.dim t.data c)

/-- The kernel is clustered per channel: a Conv2D kernel all of whose channels have, up to one, the
same number of distinct values. -/
def Spec.PerChannel (isConv : Bool) (t : QTensor α) : Prop :=
  isConv = true ∧ ∀ c < t.dim, ∀ c' < t.dim, Spec.channelCount t c ≤ Spec.channelCount t c' + 1

theorem Aux.getCentroids_whole {isConv : Bool} {t : QTensor α} (h : ¬ Spec.PerChannel isConv t) :
    getCentroids isConv t = ([uniques t.data], Spec.distinct t.data, false) := by
  unfold getCentroids
  simp only [List.map_map, ← Aux.uniques_length]
  rw [if_pos]
  rw [Bool.or_eq_true, Bool.not_eq_true', decide_eq_true_eq]
  by_contra hn
  rw [not_or, Bool.not_eq_false, not_lt] at hn
  refine h ⟨hn.1, fun c hc c' hc' => ?_⟩
  have hmem : ∀ c < t.dim, Spec.channelCount t c ∈
      (List.range t.dim).map (List.length ∘ fun c => uniques (column t.dim t.data c)) := fun c hc =>
    List.mem_map.2 ⟨c, List.mem_range.2 hc, by simp [Aux.uniques_length]⟩
  have h1 := Aux.foldr_max_le (hmem c hc)
  have h2 := Aux.foldr_min_le (b := List.foldr max 0
    ((List.range t.dim).map (List.length ∘ fun c => uniques (column t.dim t.data c)))) (hmem c' hc')
  omega

theorem Aux.getCentroids_channel {isConv : Bool} {t : QTensor α} (h : Spec.PerChannel isConv t) {N : ℕ}
    (hN : ∀ c < t.dim, Spec.channelCount t c ≤ N) (hN' : ∃ c < t.dim, Spec.channelCount t c = N) :
    getCentroids isConv t = ((List.range t.dim).map (fun c => uniques (column t.dim t.data c) ++
      List.replicate (N - Spec.channelCount t c) 1), N, true) := by
  obtain ⟨hc0, hspread⟩ := h
  obtain ⟨c₀, hc₀, hN'⟩ := hN'
  unfold getCentroids
  simp only [List.map_map]
  set counts := (List.range t.dim).map (List.length ∘ fun c => uniques (column t.dim t.data c)) with hcounts
  have hmem : ∀ c < t.dim, Spec.channelCount t c ∈ counts := fun c hc =>
    List.mem_map.2 ⟨c, List.mem_range.2 hc, by simp [Aux.uniques_length]⟩
  have hmem' : ∀ x ∈ counts, ∃ c < t.dim, x = Spec.channelCount t c := by
    intro x hx
    obtain ⟨c, hc, rfl⟩ := List.mem_map.1 hx
    exact ⟨c, List.mem_range.1 hc, by simp [Aux.uniques_length]⟩
  have hmx : counts.foldr max 0 = N := by
    apply le_antisymm
    · obtain ⟨c, hc, e⟩ := hmem' _ (Aux.foldr_max_mem (List.ne_nil_of_mem (hmem c₀ hc₀)))
      rw [e]; exact hN c hc
    · rw [← hN']; exact Aux.foldr_max_le (hmem c₀ hc₀)
  rw [hmx, if_neg]
  · simp [Aux.uniques_length, Function.comp_def]
  · rw [Bool.or_eq_true, Bool.not_eq_true', decide_eq_true_eq, not_or, Bool.not_eq_false, not_lt]
    refine ⟨hc0, ?_⟩
    rcases Aux.foldr_min_mem (l := counts) (b := N) with h | h
    · obtain ⟨c, hc, e⟩ := hmem' _ h
      rw [e, ← hN']
      have := hspread c₀ hc₀ c hc
      omega
    · rw [h]; omega

theorem Aux.channel_max {t : QTensor α} (h : Spec.ProperTensor t) :
    ∃ N, (∀ c < t.dim, Spec.channelCount t c ≤ N) ∧ ∃ c < t.dim, Spec.channelCount t c = N := by
  have hd := (Aux.proper_dim h).1
  have hne : (List.range t.dim).map (Spec.channelCount t) ≠ [] := by
    intro he; have := congrArg List.length he; simp at this; omega
  refine ⟨((List.range t.dim).map (Spec.channelCount t)).foldr max 0, ?_, ?_⟩
  · intro c hc
    exact Aux.foldr_max_le (List.mem_map.2 ⟨c, List.mem_range.2 hc, rfl⟩)
  · obtain ⟨c, hc, e⟩ := List.mem_map.1 (Aux.foldr_max_mem hne)
    exact ⟨c, List.mem_range.1 hc, e⟩

/-! ### Invariants -/

/-- Facts fixed by the build. -/
structure Aux.CPStatic (b : CPBuilt α) (t : QTensor α) (N R : ℕ) : Prop where
  shape : b.shape = t.shape
  groups : R = if b.perChannel then t.dim else 1
  active : b.active = true ↔ 2 ≤ N ∧ N ≤ 1024
  masks : ∀ m cm, b.masks = some (m, cm) → m = sparsityMask t.data ∧ cm.length = R ∧
    ∀ row ∈ cm, row.length = N ∧ ∃ k < N, row.getD k 1 = 0

/-- Facts kept by every event. -/
structure Aux.CPDyn (t : QTensor α) (N R : ℕ) (s : CPState α) : Prop where
  orig : s.orig.length = t.data.length
  low : ∀ w ∈ s.orig, -1000000 < w
  kernel : s.kernel.length = t.data.length
  cents : s.cents.length = R
  rows : ∀ row ∈ s.cents, row.length = N
  vars : Aux.RangesOk s.vars

theorem Aux.centMask_row (row : List α) (N : ℕ) (hr : row ≠ []) (hN : row.length = N) :
    ((List.range N).map fun j => (1 : α) - if j = argmin (row.map fun c => |c|) then 1 else 0).length = N ∧
    ∃ k < N, ((List.range N).map fun j => (1 : α) - if j = argmin (row.map fun c => |c|) then 1 else 0).getD k 1 = 0 := by
  refine ⟨by simp, argmin (row.map fun c => |c|), ?_, ?_⟩
  · have := (Aux.argmin_spec (row.map fun c => |c|) (by simpa using hr)).1
    simpa [hN] using this
  · have := (Aux.argmin_spec (row.map fun c => |c|) (by simpa using hr)).1
    rw [Aux.getD_map_range, if_pos (by simpa [hN] using this)]
    simp

theorem Aux.build_facts (cfg : QCfg) (isConv flag : Bool) (t : QTensor α) (hp : Spec.ProperTensor t)
    (hlow : ∀ w ∈ t.data, -1000000 < w) (N : ℕ)
    (hwhole : ¬ Spec.PerChannel isConv t → N = Spec.distinct t.data)
    (hchan : Spec.PerChannel isConv t → (∀ c < t.dim, Spec.channelCount t c ≤ N) ∧ ∃ c < t.dim, Spec.channelCount t c = N) :
    ∃ R, Aux.CPStatic (CPBuild cfg isConv flag t).2.1 t N R ∧
      Aux.CPDyn t N R (CPBuild cfg isConv flag t).2.2 ∧
      ((CPBuild cfg isConv flag t).2.1.perChannel = true ↔ Spec.PerChannel isConv t) ∧
      (∀ i (hi : i < t.data.length), t.data[i] ∈ (CPBuild cfg isConv flag t).2.1.row (CPBuild cfg isConv flag t).2.2.cents i) := by
  by_cases hc : Spec.PerChannel isConv t
  · obtain ⟨h1, h2⟩ := hchan hc
    have hg := Aux.getCentroids_channel hc h1 h2
    have hrow : ∀ row ∈ (List.range t.dim).map (fun c => uniques (column t.dim t.data c) ++
        List.replicate (N - Spec.channelCount t c) 1), row ≠ [] ∧ row.length = N := by
      intro row hr
      obtain ⟨c, hc', rfl⟩ := List.mem_map.1 hr
      have hle := h1 c (List.mem_range.1 hc')
      refine ⟨?_, ?_⟩
      · obtain ⟨x, hx⟩ := List.exists_mem_of_ne_nil _ (Aux.column_ne_nil hp c)
        exact List.ne_nil_of_mem (List.mem_append_left _ ((Aux.uniques_mem _ x).2 hx))
      · rw [List.length_append, Aux.uniques_length, List.length_replicate]
        unfold Spec.channelCount at *
        omega
    refine ⟨t.dim, ?_, ?_, ?_, ?_⟩
    · unfold CPBuild
      simp only [hg]
      refine ⟨rfl, rfl, ?_, ?_⟩
      · simp; omega
      · intro m cm hm
        dsimp only at hm
        split at hm
        · simp only [Option.some.injEq, Prod.mk.injEq] at hm
          obtain ⟨rfl, rfl⟩ := hm
          refine ⟨rfl, by simp, ?_⟩
          intro row hr
          obtain ⟨row', hr', rfl⟩ := List.mem_map.1 hr
          exact Aux.centMask_row row' N (hrow row' hr').1 (hrow row' hr').2
        · simp at hm
    · unfold CPBuild
      simp only [hg]
      exact ⟨rfl, hlow, rfl, by simp, fun row hr => (hrow row hr).2, Aux.build_ok cfg _⟩
    · unfold CPBuild
      simp only [hg]
      simpa using hc
    · intro i hi
      unfold CPBuild CPBuilt.row
      simp only [hg, if_true]
      have hd := (Aux.proper_dim hp).1
      have hm : i % t.dim < t.dim := Nat.mod_lt _ hd
      change _ ∈ ((List.range t.dim).map _).getD (i % t.dim) []
      rw [Aux.getD_map_range, if_pos hm]
      exact List.mem_append_left _ ((Aux.uniques_mem _ _).2 (Aux.mem_column hp hi))
  · have hg := Aux.getCentroids_whole hc
    rw [hwhole hc]
    have hne : uniques t.data ≠ [] := by
      obtain ⟨x, hx⟩ := List.exists_mem_of_ne_nil _ hp.2
      exact List.ne_nil_of_mem ((Aux.uniques_mem _ x).2 hx)
    refine ⟨1, ?_, ?_, ?_, ?_⟩
    · unfold CPBuild
      simp only [hg]
      refine ⟨rfl, by simp, ?_, ?_⟩
      · simp; omega
      · intro m cm hm
        dsimp only at hm
        split at hm
        · simp only [Option.some.injEq, Prod.mk.injEq] at hm
          obtain ⟨rfl, rfl⟩ := hm
          refine ⟨rfl, by simp, ?_⟩
          intro row hr
          simp only [List.map_cons, List.map_nil, List.mem_singleton] at hr
          subst hr
          exact Aux.centMask_row _ _ hne (Aux.uniques_length _)
        · simp at hm
    · unfold CPBuild
      simp only [hg]
      exact ⟨rfl, hlow, rfl, by simp, by simp [Aux.uniques_length], Aux.build_ok cfg _⟩
    · unfold CPBuild
      simp only [hg]
      simpa using hc
    · intro i hi
      unfold CPBuild CPBuilt.row
      simp only [hg]
      simp [Aux.uniques_mem]

theorem Aux.row_mem {b : CPBuilt α} {t : QTensor α} {N R : ℕ} (hb : Aux.CPStatic b t N R)
    (hp : Spec.ProperTensor t) {cents : List (List α)} (hc : cents.length = R) (i : ℕ) :
    b.row cents i ∈ cents := by
  unfold CPBuilt.row
  have hd := (Aux.proper_dim hp).1
  have hlt : (if b.perChannel then i % (b.shape.getLast?.getD 1) else 0) < cents.length := by
    rw [hc, hb.groups, hb.shape]
    split
    · exact Nat.mod_lt _ hd
    · exact one_pos
  rw [List.getD_eq_getElem _ _ hlt]
  exact List.getElem_mem hlt

theorem Aux.masked_low {w m : List α} (h : ∀ x ∈ w, -1000000 < x) (hl : w.length = m.length) :
    ∀ x ∈ applyMask w (sparsityMask m), -1000000 < x := by
  intro x hx
  obtain ⟨i, hi, rfl⟩ := List.mem_iff_getElem.1 hx
  have hi' : i < m.length := by rw [← Aux.applyMask_length hl]; exact hi
  rw [Aux.applyMask_getElem hi (by omega) hi']
  split
  · norm_num
  · exact h _ (List.getElem_mem _)

theorem Aux.zipRows {N R : ℕ} {a c : List (List α)} (ha : a.length = R) (hc : c.length = R)
    (ha' : ∀ row ∈ a, row.length = N) (hc' : ∀ row ∈ c, row.length = N ∧ ∃ k < N, row.getD k 1 = 0) :
    (List.zipWith (List.zipWith (· * ·)) a c).length = R ∧
    ∀ row ∈ List.zipWith (List.zipWith (· * ·)) a c, row.length = N ∧ (0 : α) ∈ row := by
  refine ⟨by simp [ha, hc], ?_⟩
  intro row hr
  obtain ⟨i, hi, rfl⟩ := List.mem_iff_getElem.1 hr
  rw [List.length_zipWith] at hi
  rw [List.getElem_zipWith]
  have h1 := ha' a[i] (List.getElem_mem _)
  obtain ⟨h2, k, hk, h3⟩ := hc' c[i] (List.getElem_mem _)
  refine ⟨by simp [h1, h2], ?_⟩
  rw [List.mem_iff_getElem]
  refine ⟨k, by simp [h1, h2, hk], ?_⟩
  rw [List.getElem_zipWith]
  rw [List.getD_eq_getElem _ _ (by omega)] at h3
  rw [h3, mul_zero]

/-- Everything about the first half of a call. -/
theorem Aux.prepare_spec {b : CPBuilt α} {t : QTensor α} {N R : ℕ} (hb : Aux.CPStatic b t N R)
    (hp : Spec.ProperTensor t) {s s' : CPState α} (hs : Aux.CPDyn t N R s) {training flag : Bool}
    {out : List α} (h : b.prepare training flag s = some (out, s')) :
    Aux.CPDyn t N R s' ∧ out.length = t.data.length ∧ s'.vars = s.vars ∧
    ((out = s.kernel ∧ s'.kernel = s.kernel ∧ (training = false ∨ (b.active = false ∧ flag = false))) ∨
     (b.active = false ∧ flag = true ∧ s'.kernel = s.kernel ∧ out = applyMask s.kernel (sparsityMask t.data)) ∨
     (b.active = true ∧ training = true ∧ s'.kernel = out ∧ out = b.clustered s'.cents s'.orig ∧
        (flag = true → (∀ i (h₀ : i < t.data.length) (h : i < s'.orig.length), t.data[i] = 0 → s'.orig[i] = 0) ∧
          ∀ row ∈ s'.cents, (0 : α) ∈ row))) := by
  unfold CPBuilt.prepare at h
  split at h
  · rename_i htr
    split at h
    · rename_i hact
      split at h
      · rename_i hfl
        split at h
        · cases h
        · rename_i mask cm hm
          simp only [Option.some.injEq, Prod.mk.injEq] at h
          obtain ⟨rfl, rfl⟩ := h
          obtain ⟨rfl, h2, h3⟩ := hb.masks _ _ hm
          obtain ⟨z1, z2⟩ := Aux.zipRows hs.cents h2 hs.rows h3
          have hol := Aux.applyMask_length (m := t.data) hs.orig
          refine ⟨⟨hol, Aux.masked_low hs.low hs.orig, by simp [CPBuilt.clustered, hol], z1,
            fun row hr => (z2 row hr).1, hs.vars⟩, by simp [CPBuilt.clustered, hol], rfl, .inr (.inr ⟨hact, htr, rfl, rfl, ?_⟩)⟩
          intro _
          refine ⟨?_, fun row hr => (z2 row hr).2⟩
          intro i h₀ h hz
          have h' : i < (applyMask s.orig (sparsityMask t.data)).length := h
          change (applyMask s.orig (sparsityMask t.data))[i] = 0
          rw [Aux.applyMask_getElem h' (by have := hs.orig; omega) h₀, if_pos hz]
      · rename_i hfl
        simp only [Option.some.injEq, Prod.mk.injEq] at h
        obtain ⟨rfl, rfl⟩ := h
        exact ⟨⟨hs.orig, hs.low, by simp [CPBuilt.clustered, hs.orig], hs.cents, hs.rows, hs.vars⟩,
          by simp [CPBuilt.clustered, hs.orig], rfl, .inr (.inr ⟨hact, htr, rfl, rfl, fun hf => absurd hf hfl⟩)⟩
    · rename_i hact
      split at h
      · rename_i hfl
        split at h
        · cases h
        · rename_i mask cm hm
          simp only [Option.some.injEq, Prod.mk.injEq] at h
          obtain ⟨rfl, rfl⟩ := h
          obtain ⟨rfl, h2, h3⟩ := hb.masks _ _ hm
          exact ⟨hs, Aux.applyMask_length hs.kernel, rfl, .inr (.inl ⟨by simpa using hact, hfl, rfl, rfl⟩)⟩
      · rename_i hfl
        simp only [Option.some.injEq, Prod.mk.injEq] at h
        obtain ⟨rfl, rfl⟩ := h
        exact ⟨hs, hs.kernel, rfl, .inl ⟨rfl, rfl, .inr ⟨by simpa using hact, by simpa using hfl⟩⟩⟩
  · rename_i htr
    simp only [Option.some.injEq, Prod.mk.injEq] at h
    obtain ⟨rfl, rfl⟩ := h
    exact ⟨hs, hs.kernel, rfl, .inl ⟨rfl, rfl, .inl (by simpa using htr)⟩⟩

theorem Aux.proper_of_length {t : QTensor α} (hp : Spec.ProperTensor t) {l : List α}
    (h : l.length = t.data.length) : Spec.ProperTensor (⟨t.shape, l⟩ : QTensor α) := by
  refine ⟨by rw [h]; exact hp.1, ?_⟩
  rintro rfl
  exact hp.2 (List.length_eq_zero_iff.1 h.symm)

/-- A history keeps any relation between the build-time kernel and the kernel that the prepared tensors
satisfy, and the outputs are channelwise quantizations of prepared tensors. -/
theorem Aux.cp_run {cfg : QCfg} (hbits : 2 ≤ cfg.numBits) {b : CPBuilt α} {t : QTensor α} {N R : ℕ}
    (hb : Aux.CPStatic b t N R) (hp : Spec.ProperTensor t) (K : List α → Prop) (E : CPEvent α → Prop)
    (hcall : ∀ s s' training flag out, Aux.CPDyn t N R s → K s.kernel → E (.call training flag) →
      b.prepare training flag s = some (out, s') → K out ∧ K s'.kernel)
    (hopt : b.active = false → ∀ l orig cents kernel, l.length = t.data.length → K l →
      E (.optimizer orig cents kernel) → K (l.mapIdx fun i _ => kernel i))
    (hlow : ∀ e, E e → Spec.EventLow e) :
    ∀ (evs : List (CPEvent α)) (s : CPState α) (outs : List (QTensor α)) (s' : CPState α),
      Aux.CPDyn t N R s → K s.kernel → (∀ e ∈ evs, E e) → b.run cfg s evs = some (outs, s') →
      Aux.CPDyn t N R s' ∧ K s'.kernel ∧ ∀ o ∈ outs, o.shape = t.shape ∧
        ∃ (l : List α) (f : ℕ → α → α), l.length = t.data.length ∧ K l ∧ (∀ c, f c 0 = 0) ∧
          (cfg.perAxis = false → ∀ c c', f c = f c') ∧ o.data = l.mapIdx fun i x => f (i % t.dim) x := by
  intro evs
  induction evs with
  | nil =>
    intro s outs s' hs hK _ h
    simp only [CPBuilt.run, Option.some.injEq, Prod.mk.injEq] at h
    obtain ⟨rfl, rfl⟩ := h
    exact ⟨hs, hK, by simp⟩
  | cons e evs ih =>
    intro s outs s' hs hK hE h
    simp only [CPBuilt.run, Option.bind_eq_some_iff, Option.map_eq_some_iff] at h
    obtain ⟨⟨os, s₁⟩, g1, ⟨outs', s₂⟩, g2, g3⟩ := h
    cases g3
    have hEe := hE e List.mem_cons_self
    have hE' := fun e' he' => hE e' (List.mem_cons_of_mem _ he')
    suffices hstep : Aux.CPDyn t N R s₁ ∧ K s₁.kernel ∧ ∀ o ∈ os, o.shape = t.shape ∧
        ∃ (l : List α) (f : ℕ → α → α), l.length = t.data.length ∧ K l ∧ (∀ c, f c 0 = 0) ∧
          (cfg.perAxis = false → ∀ c c', f c = f c') ∧ o.data = l.mapIdx fun i x => f (i % t.dim) x by
      obtain ⟨i1, i2, i3⟩ := ih s₁ outs' s₂ hstep.1 hstep.2.1 hE' g2
      refine ⟨i1, i2, ?_⟩
      intro o ho
      rcases List.mem_append.1 ho with ho | ho
      · exact hstep.2.2 o ho
      · exact i3 o ho
    cases e with
    | call training flag =>
      simp only [CPBuilt.step, CPBuilt.call, Option.map_eq_some_iff, Option.bind_eq_some_iff] at g1
      obtain ⟨⟨o, s₃⟩, ⟨⟨out, s₄⟩, k1, ⟨o', v'⟩, k2, k3⟩, k4⟩ := g1
      cases k3
      cases k4
      obtain ⟨p1, p2, p3, -⟩ := Aux.prepare_spec hb hp hs k1
      obtain ⟨q1, q2⟩ := hcall _ _ _ _ _ hs hK hEe k1
      have hpo := Aux.proper_of_length hp p2
      rw [hb.shape] at k2
      obtain ⟨r1, r2, f, r3, r4, r5⟩ := Aux.lv_call hbits p1.vars hpo k2
      refine ⟨⟨p1.orig, p1.low, p1.kernel, p1.cents, p1.rows, r1⟩, q2, ?_⟩
      intro o'' ho
      rw [List.mem_singleton.1 ho]
      exact ⟨r2, out, f, p2, q1, fun c => (r3 c).zero, r4, r5⟩
    | optimizer orig cents kernel =>
      have hl := hlow _ hEe
      simp only [CPBuilt.step] at g1
      split at g1
      · simp only [Option.some.injEq, Prod.mk.injEq] at g1
        obtain ⟨rfl, rfl⟩ := g1
        refine ⟨⟨by simp [hs.orig], ?_, hs.kernel, by simp [hs.cents], ?_, hs.vars⟩, hK, by simp⟩
        · intro w hw
          obtain ⟨i, hi, rfl⟩ := List.mem_iff_getElem.1 hw
          simp only [List.getElem_mapIdx]
          exact hl i
        · intro row hr
          obtain ⟨i, hi, rfl⟩ := List.mem_iff_getElem.1 hr
          simp only [List.getElem_mapIdx, List.length_mapIdx]
          exact hs.rows _ (List.getElem_mem _)
      · rename_i hact
        simp only [Option.some.injEq, Prod.mk.injEq] at g1
        obtain ⟨rfl, rfl⟩ := g1
        exact ⟨⟨hs.orig, hs.low, by simp [hs.kernel], hs.cents, hs.rows, hs.vars⟩,
          hopt (by simpa using hact) _ _ _ _ hs.kernel hK hEe, by simp⟩

theorem Aux.clustered_mem {b : CPBuilt α} {t : QTensor α} {N R : ℕ} (hb : Aux.CPStatic b t N R)
    (hp : Spec.ProperTensor t) {cents : List (List α)} {orig : List α} (hc : cents.length = R) (hN : 0 < N)
    (hrows : ∀ row ∈ cents, row.length = N) (hlow : ∀ w ∈ orig, -1000000 < w) (i : ℕ)
    (hi : i < (b.clustered cents orig).length) : (b.clustered cents orig)[i] ∈ b.row cents i := by
  unfold CPBuilt.clustered at hi ⊢
  rw [List.length_mapIdx] at hi
  simp only [List.getElem_mapIdx]
  have hr := Aux.row_mem hb hp hc i
  have hne : b.row cents i ≠ [] := by
    intro he; have := hrows _ hr; rw [he] at this; simp at this; omega
  exact (C20_value _ hne _ (hlow _ (List.getElem_mem hi))).1

/-! ## C53: clusters -/

/-- C53: a kernel clustered as a whole (a Dense kernel, or a Conv2D kernel whose channels have different
numbers of values) with between 2 and 1024 distinct values.  After any history of training and
inference calls and optimizer steps the kernel has at most as many distinct values as it had at build,
and so has every channel of every quantized output (and every quantized output as a whole if the
quantizer is not per axis). -/
theorem C53_whole_kernel (cfg : QCfg) (hbits : 2 ≤ cfg.numBits) (isConv flag : Bool) (t : QTensor α)
    (hp : Spec.ProperTensor t) (hlow : ∀ w ∈ t.data, -1000000 < w) (hwhole : ¬ Spec.PerChannel isConv t)
    (h2 : 2 ≤ Spec.distinct t.data) (h1024 : Spec.distinct t.data ≤ 1024)
    (evs : List (CPEvent α)) (hev : ∀ e ∈ evs, Spec.EventLow e) (outs : List (QTensor α)) (s : CPState α)
    (h : (CPBuild cfg isConv flag t).2.1.run cfg (CPBuild cfg isConv flag t).2.2 evs = some (outs, s)) :
    Spec.distinct s.kernel ≤ Spec.distinct t.data ∧
    ∀ o ∈ outs, o.shape = t.shape ∧ o.data.length = t.data.length ∧
      (∀ c < t.dim, Spec.distinct (column t.dim o.data c) ≤ Spec.distinct t.data) ∧
      (cfg.perAxis = false → Spec.distinct o.data ≤ Spec.distinct t.data) := by
  obtain ⟨R, hb, hs, hpc, -⟩ := Aux.build_facts cfg isConv flag t hp hlow (Spec.distinct t.data) (fun _ => rfl)
    (fun hc => absurd hc hwhole)
  have hpf : (CPBuild cfg isConv flag t).2.1.perChannel = false := by
    rw [← Bool.not_eq_true, hpc]; exact hwhole
  have hact := hb.active.2 ⟨h2, h1024⟩
  obtain ⟨-, r2, r3⟩ := Aux.cp_run hbits hb hp (fun l => Spec.distinct l ≤ Spec.distinct t.data) Spec.EventLow
    (by
      intro s s' training fl out hs hK _ hpre
      obtain ⟨p1, p2, -, p3⟩ := Aux.prepare_spec hb hp hs hpre
      rcases p3 with ⟨rfl, e2, -⟩ | ⟨e1, -⟩ | ⟨-, -, e3, e4, -⟩
      · rw [e2]; exact ⟨hK, hK⟩
      · rw [hact] at e1; cases e1
      · have key : Spec.distinct out ≤ Spec.distinct t.data := by
          rw [e4]
          have hr0 := Aux.row_mem hb hp p1.cents 0
          rw [← p1.rows _ hr0]
          refine Aux.distinct_le_of_subset _ fun x hx => ?_
          obtain ⟨i, hi, rfl⟩ := List.mem_iff_getElem.1 hx
          have := Aux.clustered_mem hb hp p1.cents (by omega) p1.rows p1.low i hi
          simpa [CPBuilt.row, hpf] using this
        rw [e3]; exact ⟨key, key⟩)
    (by intro hna; rw [hact] at hna; cases hna) (fun e he => he) evs _ outs s hs le_rfl hev h
  refine ⟨r2, fun o ho => ?_⟩
  obtain ⟨o1, l, f, o2, o3, -, o4, o5⟩ := r3 o ho
  have hd := Aux.proper_dim hp
  obtain ⟨rows, -, hlen⟩ := hd.2
  refine ⟨o1, by rw [o5]; simp [o2], ?_, ?_⟩
  · intro c hc
    rw [o5, Aux.column_mapIdx _ _ _ _ hd.1 hc ⟨rows, by rw [o2, hlen, mul_comm]⟩]
    refine (Aux.distinct_map_le _ _).trans (le_trans ?_ o3)
    refine Finset.card_le_card fun x hx => ?_
    rw [List.mem_toFinset] at hx ⊢
    have hdim : (⟨t.shape, l⟩ : QTensor α).dim = t.dim := rfl
    rw [← hdim] at hx hc
    obtain ⟨i, hi, -, rfl⟩ := Aux.column_mem (Aux.proper_of_length hp o2) hc hx
    exact List.getElem_mem hi
  · intro hpa
    have : (fun i x => f (i % t.dim) x) = fun (_ : ℕ) x => f 0 x := by
      funext i x; rw [o4 hpa (i % t.dim) 0]
    rw [o5, this]
    have : (l.mapIdx fun _ x => f 0 x) = l.map (f 0) := by
      refine List.ext_getElem (by simp) (by simp)
    rw [this]
    exact (Aux.distinct_map_le _ _).trans o3

/-- C53: a Conv2D kernel clustered per channel (the numbers of distinct values of its channels differ by
at most one and the largest, `N`, is between 2 and 1024).  After any history every channel of the
kernel and of every quantized output has at most `N` distinct values. -/
theorem C53_per_channel_partial (cfg : QCfg) (hbits : 2 ≤ cfg.numBits) (isConv flag : Bool) (t : QTensor α)
    (hp : Spec.ProperTensor t) (hlow : ∀ w ∈ t.data, -1000000 < w) (hchan : Spec.PerChannel isConv t) (N : ℕ)
    (hN : ∀ c < t.dim, Spec.channelCount t c ≤ N) (hN' : ∃ c < t.dim, Spec.channelCount t c = N)
    (h2 : 2 ≤ N) (h1024 : N ≤ 1024)
    (evs : List (CPEvent α)) (hev : ∀ e ∈ evs, Spec.EventLow e) (outs : List (QTensor α)) (s : CPState α)
    (h : (CPBuild cfg isConv flag t).2.1.run cfg (CPBuild cfg isConv flag t).2.2 evs = some (outs, s)) :
    ∀ c < t.dim, Spec.distinct (column t.dim s.kernel c) ≤ N ∧
    ∀ o ∈ outs, o.shape = t.shape ∧ o.data.length = t.data.length ∧
      Spec.distinct (column t.dim o.data c) ≤ N := by
  obtain ⟨R, hb, hs, hpc, -⟩ := Aux.build_facts cfg isConv flag t hp hlow N (fun hn => absurd hchan hn)
    (fun _ => ⟨hN, hN'⟩)
  have hpt := hpc.2 hchan
  have hact := hb.active.2 ⟨h2, h1024⟩
  have hd := Aux.proper_dim hp
  obtain ⟨rows, -, hlen⟩ := hd.2
  obtain ⟨-, r2, r3⟩ := Aux.cp_run hbits hb hp
    (fun l => ∀ c < t.dim, Spec.distinct (column t.dim l c) ≤ N) Spec.EventLow
    (by
      intro s s' training fl out hs hK _ hpre
      obtain ⟨p1, p2, -, p3⟩ := Aux.prepare_spec hb hp hs hpre
      rcases p3 with ⟨rfl, e2, -⟩ | ⟨e1, -⟩ | ⟨-, -, e3, e4, -⟩
      · rw [e2]; exact ⟨hK, hK⟩
      · rw [hact] at e1; cases e1
      · have key : ∀ c < t.dim, Spec.distinct (column t.dim out c) ≤ N := by
          intro c hc
          have hr0 := Aux.row_mem hb hp p1.cents c
          rw [← p1.rows _ hr0]
          refine Aux.distinct_le_of_subset _ fun x hx => ?_
          have hdim : (⟨t.shape, out⟩ : QTensor α).dim = t.dim := rfl
          rw [← hdim] at hx hc
          obtain ⟨i, hi, hic, rfl⟩ := Aux.column_mem (Aux.proper_of_length hp p2) hc hx
          rw [hdim] at hic hc
          have hi' : i < (CPBuilt.clustered (CPBuild cfg isConv flag t).2.1 s'.cents s'.orig).length := by
            rw [← e4]; exact hi
          have := Aux.clustered_mem hb hp p1.cents (by omega) p1.rows p1.low i hi'
          have hrow : (CPBuild cfg isConv flag t).2.1.row s'.cents c =
              (CPBuild cfg isConv flag t).2.1.row s'.cents i := by
            have hdim' : (CPBuild cfg isConv flag t).2.1.shape.getLast?.getD 1 = t.dim := by rw [hb.shape]; rfl
            simp only [CPBuilt.row, hpt, if_true, hdim', hic, Nat.mod_eq_of_lt hc]
          rw [hrow]
          simpa only [e4] using this
        rw [e3]; exact ⟨key, key⟩)
    (by intro hna; rw [hact] at hna; cases hna) (fun e he => he) evs _ outs s hs hN hev h
  intro c hc
  refine ⟨r2 c hc, fun o ho => ?_⟩
  obtain ⟨o1, l, f, o2, o3, -, o4, o5⟩ := r3 o ho
  refine ⟨o1, by rw [o5]; simp [o2], ?_⟩
  rw [o5, Aux.column_mapIdx _ _ _ _ hd.1 hc ⟨rows, by rw [o2, hlen, mul_comm]⟩]
  exact (Aux.distinct_map_le _ _).trans (o3 c hc)

/-! ## C53: zeros -/

/-- C53: a layer built with `preserve_sparsity` on and called with it on.  After any history the kernel
and every quantized output is zero wherever the kernel was at build.  (Clustered or not, whole or per
channel.) -/
theorem C53_zeros_kept (cfg : QCfg) (hbits : 2 ≤ cfg.numBits) (isConv : Bool) (t : QTensor α)
    (hp : Spec.ProperTensor t) (hlow : ∀ w ∈ t.data, -1000000 < w)
    (evs : List (CPEvent α)) (hev : ∀ e ∈ evs, Spec.EventLow e ∧ Spec.EventFlag e ∧ Spec.EventZeros t.data e)
    (outs : List (QTensor α)) (s : CPState α)
    (h : (CPBuild cfg isConv true t).2.1.run cfg (CPBuild cfg isConv true t).2.2 evs = some (outs, s)) :
    Spec.ZerosKept t.data s.kernel ∧ ∀ o ∈ outs, Spec.ZerosKept t.data o.data := by
  obtain ⟨N, hN, hw⟩ : ∃ N, (¬ Spec.PerChannel isConv t → N = Spec.distinct t.data) ∧
      (Spec.PerChannel isConv t → (∀ c < t.dim, Spec.channelCount t c ≤ N) ∧
        ∃ c < t.dim, Spec.channelCount t c = N) := by
    by_cases hc : Spec.PerChannel isConv t
    · obtain ⟨N, h1, h2⟩ := Aux.channel_max hp
      exact ⟨N, fun hn => absurd hc hn, fun _ => ⟨h1, h2⟩⟩
    · exact ⟨_, fun _ => rfl, fun h => absurd h hc⟩
  obtain ⟨R, hb, hs, -, -⟩ := Aux.build_facts cfg isConv true t hp hlow N hN hw
  obtain ⟨r1, r2, r3⟩ := Aux.cp_run hbits hb hp (fun l => Spec.ZerosKept t.data l)
    (fun e => Spec.EventLow e ∧ Spec.EventFlag e ∧ Spec.EventZeros t.data e)
    (by
      intro s s' training flag out hs hK hE hpre
      obtain ⟨p1, p2, -, p3⟩ := Aux.prepare_spec hb hp hs hpre
      rcases p3 with ⟨rfl, e2, -⟩ | ⟨-, -, e2, e3⟩ | ⟨hact, -, e3, e4, e5⟩
      · rw [e2]; exact ⟨hK, hK⟩
      · rw [e2, e3]
        refine ⟨⟨Aux.applyMask_length hs.kernel, fun i h₀ h hz => ?_⟩, hK⟩
        rw [Aux.applyMask_getElem h (by rw [hs.kernel]; exact h₀) h₀, if_pos hz]
      · obtain ⟨z1, z2⟩ := e5 hE.2.1
        have key : Spec.ZerosKept t.data out := by
          refine ⟨p2, fun i h₀ h hz => ?_⟩
          have hio : i < s'.orig.length := by rw [p1.orig]; exact h₀
          have hr := z2 _ (Aux.row_mem hb hp p1.cents i)
          have hrow : 0 < s'.cents.length := List.length_pos_of_mem (Aux.row_mem hb hp p1.cents i)
          simp only [e4, CPBuilt.clustered, List.getElem_mapIdx]
          rw [z1 i h₀ hio hz]
          exact C20_fixed _ _ (by norm_num) hr
        rw [e3]; exact ⟨key, key⟩)
    (by
      intro _ l orig cents kernel hl _ hE
      refine ⟨by simp [hl], fun i h₀ h hz => ?_⟩
      simp only [List.getElem_mapIdx]
      exact hE.2.2 i h₀ hz)
    (fun e he => he.1) evs _ outs s hs
    ⟨hs.kernel, fun i h₀ h hz => hz⟩ hev h
  refine ⟨r2, fun o ho => ?_⟩
  obtain ⟨-, l, f, o2, o3, o4, -, o5⟩ := r3 o ho
  refine ⟨by rw [o5]; simp [o2], fun i h₀ h hz => ?_⟩
  simp only [o5, List.getElem_mapIdx]
  rw [o3.2 i h₀ (by rw [o2]; exact h₀) hz]
  exact o4 _

/-! ## C53: the first training call, the shared flag, and success of calls -/

theorem Aux.argmin_abs_zero {row : List α} (h : (0 : α) ∈ row) :
    row.getD (argmin (row.map fun c => |c|)) 1 = 0 := by
  obtain ⟨h1, h2, -⟩ := Aux.argmin_spec (row.map fun c => |c|) (by
    intro he; rw [List.map_eq_nil_iff] at he; rw [he] at h; simp at h)
  obtain ⟨j, hj, e⟩ := List.mem_iff_getElem.1 h
  have := h2 j (by simpa using hj)
  simp only [List.getElem_map, e, abs_zero] at this
  rw [List.getD_eq_getElem _ _ (by simpa using h1)]
  exact abs_nonpos_iff.1 this

theorem Aux.mask_row_id {row : List α} (h : (0 : α) ∈ row) {N : ℕ} (hN : row.length = N) :
    List.zipWith (· * ·) row
      ((List.range N).map fun j => (1 : α) - if j = argmin (row.map fun c => |c|) then 1 else 0) = row := by
  refine List.ext_getElem (by simp [hN]) fun i h₁ h₂ => ?_
  simp only [List.getElem_zipWith, List.getElem_map, List.getElem_range]
  split
  · rename_i hi
    have := Aux.argmin_abs_zero h
    rw [← hi, List.getD_eq_getElem _ _ h₂] at this
    rw [this]; simp
  · simp

/-- C53: building a layer and calling it in training before any optimizer step leaves the kernel as it
was, provided sparsity is not preserved, or the kernel has a zero in every group of weights that is
clustered together (the whole kernel, or each channel if it is clustered per channel). -/
theorem C53_first_call (cfg : QCfg) (isConv flag : Bool) (t : QTensor α) (hp : Spec.ProperTensor t)
    (hlow : ∀ w ∈ t.data, -1000000 < w)
    (hz : flag = true → Spec.PerChannel isConv t → ∀ c < t.dim, (0 : α) ∈ column t.dim t.data c)
    (training : Bool) (o : QTensor α) (s : CPState α)
    (h : (CPBuild cfg isConv flag t).2.1.call cfg training (CPBuild cfg isConv flag t).1
      (CPBuild cfg isConv flag t).2.2 = some (o, s)) :
    s.kernel = t.data ∧
      ∃ v, QKind.lastValue.call cfg (QKind.lastValue.build cfg (some t.shape)) training t = some (o, v) := by
  obtain ⟨N, hN, hw⟩ : ∃ N, (¬ Spec.PerChannel isConv t → N = Spec.distinct t.data) ∧
      (Spec.PerChannel isConv t → (∀ c < t.dim, Spec.channelCount t c ≤ N) ∧
        ∃ c < t.dim, Spec.channelCount t c = N) := by
    by_cases hc : Spec.PerChannel isConv t
    · obtain ⟨N, h1, h2⟩ := Aux.channel_max hp
      exact ⟨N, fun hn => absurd hc hn, fun _ => ⟨h1, h2⟩⟩
    · exact ⟨_, fun _ => rfl, fun h => absurd h hc⟩
  obtain ⟨R, hb, hs, hpc, hmem⟩ := Aux.build_facts cfg isConv flag t hp hlow N hN hw
  have hflag : (CPBuild cfg isConv flag t).1 = (flag && t.data.any fun x => x = 0) := rfl
  have hker : (CPBuild cfg isConv flag t).2.2.kernel = t.data := rfl
  have horig : (CPBuild cfg isConv flag t).2.2.orig = t.data := rfl
  have hvars : (CPBuild cfg isConv flag t).2.2.vars = QKind.lastValue.build cfg (some t.shape) := rfl
  have hmasks : (CPBuild cfg isConv flag t).2.1.masks = if (CPBuild cfg isConv flag t).1 then
      some (sparsityMask t.data, (CPBuild cfg isConv flag t).2.2.cents.map fun row =>
        (List.range N).map fun j => (1 : α) - if j = argmin (row.map fun c => |c|) then 1 else 0) else none := by
    have hnum : (getCentroids isConv t).2.1 = N := by
      by_cases hc : Spec.PerChannel isConv t
      · rw [Aux.getCentroids_channel hc (hw hc).1 (hw hc).2]
      · rw [Aux.getCentroids_whole hc, hN hc]
    simp only [CPBuild, hnum]
  have hmaskself : applyMask t.data (sparsityMask t.data) = t.data := by
    refine List.ext_getElem (Aux.applyMask_length rfl) fun i h₁ h₂ => ?_
    rw [Aux.applyMask_getElem h₁ h₂ h₂]
    split
    · rename_i h; exact h.symm
    · rfl
  have hzrow : (CPBuild cfg isConv flag t).1 = true → ∀ row ∈ (CPBuild cfg isConv flag t).2.2.cents, (0 : α) ∈ row := by
    intro hf row hr
    rw [hflag, Bool.and_eq_true, List.any_eq_true] at hf
    obtain ⟨hf1, x, hx, hx0⟩ := hf
    rw [decide_eq_true_eq] at hx0
    subst hx0
    by_cases hc : Spec.PerChannel isConv t
    · simp only [CPBuild, Aux.getCentroids_channel hc (hw hc).1 (hw hc).2] at hr
      obtain ⟨c, hc', rfl⟩ := List.mem_map.1 hr
      exact List.mem_append_left _ ((Aux.uniques_mem _ _).2 (hz hf1 hc c (List.mem_range.1 hc')))
    · simp only [CPBuild, Aux.getCentroids_whole hc, List.mem_singleton] at hr
      rw [hr]; exact (Aux.uniques_mem _ _).2 hx
  have hclus : (CPBuild cfg isConv flag t).2.1.clustered (CPBuild cfg isConv flag t).2.2.cents t.data = t.data := by
    unfold CPBuilt.clustered
    refine List.ext_getElem (by simp) fun i h₁ h₂ => ?_
    simp only [List.getElem_mapIdx]
    exact C20_fixed _ _ (hlow _ (List.getElem_mem _)) (hmem i h₂)
  have hcm : (CPBuild cfg isConv flag t).1 = true →
      List.zipWith (List.zipWith (· * ·)) (CPBuild cfg isConv flag t).2.2.cents
        ((CPBuild cfg isConv flag t).2.2.cents.map fun row =>
          (List.range N).map fun j => (1 : α) - if j = argmin (row.map fun c => |c|) then 1 else 0) =
        (CPBuild cfg isConv flag t).2.2.cents := by
    intro hf
    refine List.ext_getElem (by simp) fun i h₁ h₂ => ?_
    simp only [List.getElem_zipWith, List.getElem_map]
    exact Aux.mask_row_id (hzrow hf _ (List.getElem_mem h₂)) (hs.rows _ (List.getElem_mem h₂))
  have hprep : ∀ out s', (CPBuild cfg isConv flag t).2.1.prepare training (CPBuild cfg isConv flag t).1
      (CPBuild cfg isConv flag t).2.2 = some (out, s') → out = t.data ∧ s'.kernel = t.data := by
    intro out s' hpre
    unfold CPBuilt.prepare at hpre
    rw [hmasks] at hpre
    by_cases hf : (CPBuild cfg isConv flag t).1 = true
    · simp only [hf, if_true, horig, hker, hmaskself, hcm hf, hclus] at hpre
      split at hpre
      · split at hpre <;> (simp only [Option.some.injEq, Prod.mk.injEq] at hpre; obtain ⟨rfl, rfl⟩ := hpre)
        · exact ⟨rfl, rfl⟩
        · exact ⟨rfl, hker⟩
      · simp only [Option.some.injEq, Prod.mk.injEq] at hpre; obtain ⟨rfl, rfl⟩ := hpre
        exact ⟨rfl, hker⟩
    · simp only [hf, if_false, horig, hker, hclus, Bool.false_eq_true] at hpre
      split at hpre
      · split at hpre <;> (simp only [Option.some.injEq, Prod.mk.injEq] at hpre; obtain ⟨rfl, rfl⟩ := hpre)
        · exact ⟨rfl, rfl⟩
        · exact ⟨rfl, hker⟩
      · simp only [Option.some.injEq, Prod.mk.injEq] at hpre; obtain ⟨rfl, rfl⟩ := hpre
        exact ⟨rfl, hker⟩
  simp only [CPBuilt.call, Option.bind_eq_some_iff, Option.map_eq_some_iff] at h
  obtain ⟨⟨out, s'⟩, k1, ⟨o', v'⟩, k2, k3⟩ := h
  cases k3
  obtain ⟨rfl, e2⟩ := hprep _ _ k1
  have e3 := (Aux.prepare_spec hb hp hs k1).2.2.1
  rw [e3, hb.shape, hvars] at k2
  exact ⟨e2, v', k2⟩

/-- C53 fails in this case: with sparsity preserved, a Conv2D kernel one of whose channels has no zero
weight (here channel 1 of a `1×1×2×2` kernel with weights 1 and 3) loses, in its first training call,
the cluster of that channel that is smallest in absolute value: the weight 1 becomes 0. -/
theorem C53_nonzero_channel_violated :
    ∃ o s, (CPBuild cfgConv8 true true (⟨[1, 1, 2, 2], [0, 1, 2, 3]⟩ : QTensor ℚ)).2.1.call cfgConv8 true true
      (CPBuild cfgConv8 true true (⟨[1, 1, 2, 2], [0, 1, 2, 3]⟩ : QTensor ℚ)).2.2 = some (o, s) ∧
      s.kernel = [0, 0, 2, 3] := by
  refine ⟨((CPBuild cfgConv8 true true (⟨[1, 1, 2, 2], [0, 1, 2, 3]⟩ : QTensor ℚ)).2.1.call cfgConv8 true true
      (CPBuild cfgConv8 true true (⟨[1, 1, 2, 2], [0, 1, 2, 3]⟩ : QTensor ℚ)).2.2).get (by decide +kernel) |>.1,
    ((CPBuild cfgConv8 true true (⟨[1, 1, 2, 2], [0, 1, 2, 3]⟩ : QTensor ℚ)).2.1.call cfgConv8 true true
      (CPBuild cfgConv8 true true (⟨[1, 1, 2, 2], [0, 1, 2, 3]⟩ : QTensor ℚ)).2.2).get (by decide +kernel) |>.2, ?_, ?_⟩
  · simp
  · decide +kernel

/-- C53: the flag of a shared quantizer after building all its layers is on exactly if it was on at
first and every layer has a zero weight. -/
theorem C53_shared_flag (cfg : QCfg) (isConv flag : Bool) (ts : List (QTensor α)) :
    (CPBuildAll cfg isConv flag ts).1 = true ↔ flag = true ∧ ∀ t ∈ ts, (0 : α) ∈ t.data := by
  induction ts generalizing flag with
  | nil => simp [CPBuildAll]
  | cons t ts ih =>
    have : (CPBuildAll cfg isConv flag (t :: ts)).1 =
      (CPBuildAll cfg isConv (flag && t.data.any fun x => x = 0) ts).1 := rfl
    rw [this, ih]
    simp only [Bool.and_eq_true, List.any_eq_true, decide_eq_true_eq, List.forall_mem_cons]
    constructor
    · rintro ⟨⟨h1, x, hx, rfl⟩, h2⟩; exact ⟨h1, hx, h2⟩
    · rintro ⟨h1, hx, h2⟩; exact ⟨⟨h1, 0, hx, rfl⟩, h2⟩

/-- C53 fails in this case: two Dense layers are built with `preserve_sparsity` on; the second has no
zero weight, which turns the shared flag off, and after one optimizer step a zero weight of the first
layer is quantized to a non-zero value in training. -/
theorem C53_shared_flag_violated :
    let ts : List (QTensor ℚ) := [⟨[1, 3], [0, 1, 2]⟩, ⟨[1, 2], [1, 2]⟩]
    let r := CPBuildAll cfgDense8 false true ts
    ∃ b s, r.2.head? = some (b, s) ∧ ∃ o s', b.run cfgDense8 s
      [.optimizer (fun i => if i = 0 then 9/10 else if i = 1 then 1 else 2) (fun _ j => if j = 0 then 0 else if j = 1 then 1 else 2)
        (fun _ => 0), .call true r.1] = some ([o], s') ∧
      Spec.ZerosKept [(0 : ℚ), 1, 2] [(0 : ℚ), 1, 2] ∧ ¬ Spec.ZerosKept [(0 : ℚ), 1, 2] o.data := by
  intro ts r
  have hz : ((CPBuild cfgDense8 false true (⟨[1, 3], [0, 1, 2]⟩ : QTensor ℚ)).2.1.run cfgDense8
      (CPBuild cfgDense8 false true (⟨[1, 3], [0, 1, 2]⟩ : QTensor ℚ)).2.2
      [.optimizer (fun i => if i = 0 then 9/10 else if i = 1 then 1 else 2) (fun _ j => if j = 0 then 0 else if j = 1 then 1 else 2)
        (fun _ => 0), .call true r.1]).map (fun p => p.1) = some [⟨[1, 3], [128/127, 128/127, 2]⟩] := by decide +kernel
  refine ⟨_, _, rfl, ?_⟩
  obtain ⟨⟨os, s'⟩, h1, h2⟩ := Option.map_eq_some_iff.1 hz
  simp only at h2
  subst h2
  refine ⟨_, s', h1, ⟨rfl, fun i h₀ h hz => hz⟩, ?_⟩
  rintro ⟨-, h⟩
  have := h 0 (by simp) (by simp) (by simp)
  revert this
  decide +kernel

/-- C53: calls of the two 8 bit quantizers succeed (Dense kernels; Conv2D kernels of rank 4), with the
flag off, or on if the layer was built with the flag on and has a zero weight. -/
theorem C53_calls_succeed_partial (cfg : QCfg) (isConv flag : Bool) (t : QTensor α)
    (hcfg : cfg = cfgDense8 ∨ (cfg = cfgConv8 ∧ t.shape.length = 4)) (evs : List (CPEvent α))
    (hflag : (∃ tr, CPEvent.call tr true ∈ evs) → flag = true ∧ (0 : α) ∈ t.data) :
    ∃ r, (CPBuild cfg isConv flag t).2.1.run cfg (CPBuild cfg isConv flag t).2.2 evs = some r := by
  have hmasks : (∃ tr, CPEvent.call tr true ∈ evs) → ∃ m, (CPBuild cfg isConv flag t).2.1.masks = some m := by
    intro h
    obtain ⟨h1, h2⟩ := hflag h
    have : (flag && t.data.any fun x => x = 0) = true := by
      rw [Bool.and_eq_true, List.any_eq_true]; exact ⟨h1, 0, h2, by simp⟩
    simp [CPBuild, this]
  have hvars : (CPBuild cfg isConv flag t).2.2.vars = QKind.lastValue.build cfg (some t.shape) := rfl
  have hshape : (CPBuild cfg isConv flag t).2.1.shape = t.shape := rfl
  generalize (CPBuild cfg isConv flag t).2.1 = b at *
  -- a shape condition on the range variables that makes every call succeed
  let Q : RangeVars α → Prop := fun v =>
    if cfg.perAxis then ∃ l l', v = ⟨.vector l, .vector l'⟩ ∧ l.length = t.shape.getLast?.getD 1 ∧
      l'.length = t.shape.getLast?.getD 1
    else ∃ a a', v = ⟨.scalar a, .scalar a'⟩
  have hQ0 : Q (QKind.lastValue.build cfg (some t.shape)) := by
    rcases hcfg with rfl | ⟨rfl, -⟩ <;> simp [Q, cfgDense8, cfgConv8, QKind.build, addRangeWeights]
  have hQ : ∀ v tr l, Q v → ∃ o v', QKind.lastValue.call cfg v tr ⟨t.shape, l⟩ = some (o, v') ∧ Q v' := by
    intro v tr l hv
    have hka : (QKind.lastValue != QKind.allValues) = true := rfl
    rcases hcfg with rfl | ⟨rfl, hr⟩
    · simp only [Q, cfgDense8, Bool.false_eq_true, if_false] at hv
      obtain ⟨a, a', rfl⟩ := hv
      cases tr <;> simp [Q, QKind.call, fakeQuantVars, QKind.update, cfgDense8]
    · simp only [Q, cfgConv8, if_true] at hv
      obtain ⟨a, a', rfl, e1, e2⟩ := hv
      have hne : t.shape ≠ [] := by intro h; simp [h] at hr
      cases tr <;> simp [Q, QKind.call, fakeQuantVars, QKind.update, cfgConv8, hka, perChannelRank, hr, hne,
        QTensor.dim, e1, e2]
  have hQs : Q (CPBuild cfg isConv flag t).2.2.vars := by rw [hvars]; exact hQ0
  clear hvars
  generalize (CPBuild cfg isConv flag t).2.2 = s at *
  clear hflag
  induction evs generalizing s with
  | nil => exact ⟨_, rfl⟩
  | cons e evs ih =>
    have ih' := ih (fun ⟨tr, h⟩ => hmasks ⟨tr, List.mem_cons_of_mem _ h⟩)
    suffices hstep : ∃ os s', b.step cfg s e = some (os, s') ∧ Q s'.vars by
      obtain ⟨os, s', h1, h2⟩ := hstep
      obtain ⟨r, hr⟩ := ih' s' h2
      exact ⟨_, by rw [CPBuilt.run, h1, Option.bind_some, hr, Option.map_some]⟩
    cases e with
    | optimizer orig cents kernel =>
      simp only [CPBuilt.step]
      split
      · exact ⟨_, _, rfl, hQs⟩
      · exact ⟨_, _, rfl, hQs⟩
    | call training fl =>
      have hpre : ∃ out s', b.prepare training fl s = some (out, s') ∧ s'.vars = s.vars := by
        unfold CPBuilt.prepare
        cases fl
        · cases training <;> cases b.active <;> simp
        · obtain ⟨⟨m, cm⟩, hm⟩ := hmasks ⟨training, List.mem_cons_self⟩
          rw [hm]
          cases training <;> cases b.active <;> simp
      obtain ⟨out, s', h1, h2⟩ := hpre
      obtain ⟨o, v', h3, h4⟩ := hQ s'.vars training out (by rw [h2]; exact hQs)
      refine ⟨[o], { s' with vars := v' }, ?_, h4⟩
      simp only [CPBuilt.step, CPBuilt.call, h1, Option.bind_some, hshape, h3, Option.map_some]

/-! ## Non-vacuity -/

namespace Example

/-- A clustered Dense kernel with zeros. -/
def denseKernel : QTensor ℚ := ⟨[2, 3], [0, 1/2, -1, 1/2, 0, -1]⟩
/-- A Conv2D kernel clustered per channel. -/
def convKernel : QTensor ℚ := ⟨[1, 1, 3, 2], [0, 0, 1, 2, 1, 3]⟩

example : Spec.ProperTensor denseKernel ∧ (∀ w ∈ denseKernel.data, -1000000 < w) ∧
    Spec.distinct denseKernel.data = 3 ∧ ¬ Spec.PerChannel false denseKernel := by
  refine ⟨⟨by decide +kernel, by decide +kernel⟩, by decide +kernel, by decide +kernel, ?_⟩
  rintro ⟨h, -⟩; cases h
example : Spec.PerChannel true convKernel ∧ Spec.channelCount convKernel 0 = 2 ∧
    Spec.channelCount convKernel 1 = 3 := by
  refine ⟨⟨rfl, ?_⟩, by decide +kernel, by decide +kernel⟩
  decide +kernel
/-- A history with two optimizer steps: the kernel moves, stays clustered, zeros stay. -/
def denseEvents : List (CPEvent ℚ) :=
  [.call true true, .optimizer (fun i => if i = 1 then 3/4 else 1/10) (fun _ j => (j : ℚ) / 2 - 1/2) (fun _ => 0),
    .call true true, .call false true]
example : ((CPBuild cfgDense8 false true denseKernel).2.1.run cfgDense8
    (CPBuild cfgDense8 false true denseKernel).2.2 denseEvents).map (fun r => (r.1.map (·.data), r.2.kernel)) =
    some ([[0, 64/127, -1, 64/127, 0, -1], [0, 1/2, 0, 0, 0, 0], [0, 1/2, 0, 0, 0, 0]],
      [0, 1/2, 0, 0, 0, 0]) := by decide +kernel
example : ∀ e ∈ denseEvents, Spec.EventLow e ∧ Spec.EventFlag e ∧ Spec.EventZeros denseKernel.data e := by
  intro e he
  simp only [denseEvents, List.mem_cons, List.not_mem_nil, or_false] at he
  rcases he with rfl | rfl | rfl | rfl
  · exact ⟨trivial, rfl, trivial⟩
  · refine ⟨fun i => ?_, trivial, fun i _ _ => rfl⟩
    dsimp only; split <;> norm_num
  · exact ⟨trivial, rfl, trivial⟩
  · exact ⟨trivial, rfl, trivial⟩
example : (prunePreserveHistory cfgDense8 denseKernel [(true, ⟨[2, 3], [5, 1, -2, 1, 7, 2]⟩), (false, denseKernel)]).map
    (fun r => r.1.map (·.data)) = some [[0, 128/127, -2, 128/127, 0, 2], [0, 64/127, -126/127, 64/127, 0, -126/127]] := by
  decide +kernel
end Example

end Verif.Props
